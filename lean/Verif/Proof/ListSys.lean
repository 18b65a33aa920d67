import Verif.Proof.Arch
import Verif.Proof.ListSort
import Verif.Spec.List
import Mathlib.Data.List.Perm.Subperm
/-! The list model implements the list specification. -/
set_option linter.unusedSimpArgs false
namespace Tommy

variable [Arch]
namespace ListSpec

omit [Arch] in
theorem walkLoop_spec {h : Heap} {p : Ptr} (xs : List Ptr) (acc : List (Ptr × Nat))
    (ok : ∀ x ∈ xs, h.ok x) (s : Seg h p xs 0) :
    walkLoop (xs.headD 0) acc h = some (acc.reverse ++ xs.map (fun x => (x, h.data x)), h) := by
  induction xs generalizing p acc with
  | nil => rw [walkLoop]; simp
  | cons x xs ih =>
    have ox := ok x (by simp)
    rw [List.headD_cons, walkLoop]
    have h0 : x ≠ 0 := ox.1
    simp only [h0, run_ite, if_false, run_bind, getData_run ox, Option.bind_some,
      getNext_run ox, s.2.1]
    rw [ih _ (fun y hy => ok y (by simp [hy])) s.2.2]
    simp

omit [Arch] in
theorem walk_spec {h : Heap} {l : Ptr} {xs : List Ptr} (hl : IsList h l xs) :
    walk l h = some (xs.map (fun x => (x, h.data x)), h) := by
  have := walkLoop_spec xs [] hl.ok hl.seg
  rw [walk, listHead, hl.head]
  simpa using this

omit [Arch] in
theorem listCountLoop_spec {h : Heap} {p : Ptr} (xs : List Ptr) (c : Nat)
    (ok : ∀ x ∈ xs, h.ok x) (s : Seg h p xs 0) :
    listCountLoop (xs.headD 0) c h = some (c + xs.length, h) := by
  induction xs generalizing p c with
  | nil => rw [listCountLoop]; simp
  | cons x xs ih =>
    have ox := ok x (by simp)
    rw [List.headD_cons, listCountLoop]
    have h0 : x ≠ 0 := ox.1
    simp only [h0, run_ite, if_false, run_bind, getNext_run ox, Option.bind_some, s.2.1]
    rw [ih _ (fun y hy => ok y (by simp [hy])) s.2.2]
    simp; omega

omit [Arch] in
theorem listCount_spec {h : Heap} {l : Ptr} {xs : List Ptr} (hl : IsList h l xs) :
    listCount l h = some (xs.length, h) := by
  have := listCountLoop_spec xs 0 hl.ok hl.seg
  rw [listCount, listHead, hl.head]
  simpa using this

/-! ### stable sort -/

/-- The relation kept by the merges of the sort. -/
def StableSort (cmp : Nat → Nat → Int) (d : Ptr → Nat) (xs ys : List Ptr) : Prop :=
  ys.Perm xs ∧ ys.Pairwise (fun x y => cmp (d x) (d y) ≤ 0) ∧
    ∀ k, ys.filter (fun x => cmp k (d x) = 0) = xs.filter (fun x => cmp k (d x) = 0)

variable {cmp : Nat → Nat → Int}

omit [Arch] in
theorem TotalPreorder.refl' (t : TotalPreorder cmp) (a : Nat) : cmp a a = 0 := by
  have := t.sign a a; omega

omit [Arch] in
theorem TotalPreorder.total (t : TotalPreorder cmp) {a b : Nat} (h : ¬ cmp a b ≤ 0) : cmp b a < 0 :=
  (t.sign b a).2 (by omega)

omit [Arch] in
/-- equal on the left of `k`, strictly less then `a`: impossible. -/
theorem TotalPreorder.no_eq (t : TotalPreorder cmp) {k a b : Nat} (hab : cmp b a < 0)
    (hb : cmp k b = 0) : ¬ cmp k a = 0 := by
  intro ha
  have h1 : cmp a k ≤ 0 := by
    by_contra hc
    have := t.total hc; omega
  have h2 := t.trans a k b h1 (by omega)
  have := (t.sign b a).1 hab
  omega

omit [Arch] in
theorem filter_merge (t : TotalPreorder cmp) (d : Ptr → Nat) (k : Nat) (xs ys : List Ptr)
    (sx : xs.Pairwise (fun x y => cmp (d x) (d y) ≤ 0)) :
    (List.merge xs ys (leB cmp d)).filter (fun x => cmp k (d x) = 0)
      = xs.filter (fun x => cmp k (d x) = 0) ++ ys.filter (fun x => cmp k (d x) = 0) := by
  induction xs generalizing ys with
  | nil => simp
  | cons x xs ihx =>
    induction ys with
    | nil => simp
    | cons y ys ihy =>
      by_cases hc : cmp (d x) (d y) ≤ 0
      · rw [List.cons_merge_cons_pos _ _ _ (by simpa [leB] using hc), List.filter_cons,
          ihx _ (List.Pairwise.of_cons sx)]
        rw [List.filter_cons (x := x)]
        split <;> simp
      · rw [List.cons_merge_cons_neg _ _ _ (by simpa [leB] using hc), List.filter_cons, ihy]
        by_cases hy : cmp k (d y) = 0
        · have hlt := t.total hc
          have hnil : (x :: xs).filter (fun x => cmp k (d x) = 0) = [] := by
            rw [List.filter_eq_nil_iff]
            intro z hz
            have hle : cmp (d x) (d z) ≤ 0 := by
              rcases List.mem_cons.1 hz with rfl | hz
              · rw [t.refl']
              · exact (List.pairwise_cons.1 sx).1 z hz
            have hyz : cmp (d y) (d z) < 0 := by
              by_contra hcon
              have h3 : cmp (d z) (d y) ≤ 0 := by
                by_contra h4
                have := t.total h4; omega
              have := t.trans _ _ _ hle h3
              omega
            simpa using t.no_eq hyz hy
          rw [hnil]
          simp [List.filter_cons, hy]
        · simp [List.filter_cons, hy]

omit [Arch] in
theorem stableSort_merge (t : TotalPreorder cmp) (d : Ptr → Nat) (xs ys xs' ys' : List Ptr)
    (h : StableSort cmp d xs ys) (h' : StableSort cmp d xs' ys') :
    StableSort cmp d (xs ++ xs') (mergeD cmp d ys ys') := by
  obtain ⟨p, s, f⟩ := h
  obtain ⟨p', s', f'⟩ := h'
  refine ⟨(mergeD_perm cmp d ys ys').trans (p.append p'), ?_, ?_⟩
  · unfold mergeD
    split
    · rename_i hc
      rw [List.pairwise_append]
      refine ⟨s, s', ?_⟩
      intro a ha b hb
      have h1 : cmp (d a) (d (ys.getLastD 0)) ≤ 0 := by
        obtain ⟨u, z, rfl⟩ := exists_concat (List.ne_nil_of_mem ha)
        rcases List.mem_append.1 ha with ha | ha
        · simpa using (List.pairwise_append.1 s).2.2 a ha z (by simp)
        · simp at ha; subst ha; simp [t.refl']
      have h2 : cmp (d (ys'.headD 0)) (d b) ≤ 0 := by
        obtain ⟨z, u, rfl⟩ := List.exists_cons_of_ne_nil (List.ne_nil_of_mem hb)
        rcases List.mem_cons.1 hb with rfl | hb
        · simp [t.refl']
        · exact (List.pairwise_cons.1 s').1 b hb
      exact t.trans _ _ _ h1 (t.trans _ _ _ hc h2)
    · split
      · rename_i hc
        rw [List.pairwise_append]
        refine ⟨s', s, ?_⟩
        intro a ha b hb
        have h1 : cmp (d a) (d (ys'.getLastD 0)) ≤ 0 := by
          obtain ⟨u, z, rfl⟩ := exists_concat (List.ne_nil_of_mem ha)
          rcases List.mem_append.1 ha with ha | ha
          · simpa using (List.pairwise_append.1 s').2.2 a ha z (by simp)
          · simp at ha; subst ha; simp [t.refl']
        have h2 : cmp (d (ys.headD 0)) (d b) ≤ 0 := by
          obtain ⟨z, u, rfl⟩ := List.exists_cons_of_ne_nil (List.ne_nil_of_mem hb)
          rcases List.mem_cons.1 hb with rfl | hb
          · simp [t.refl']
          · exact (List.pairwise_cons.1 s).1 b hb
        exact t.trans _ _ _ h1 (t.trans _ _ _ (by omega) h2)
      · have := List.pairwise_merge (le := leB cmp d)
          (fun a b c h1 h2 => by
            simp only [leB, decide_eq_true_eq] at *
            exact t.trans _ _ _ h1 h2)
          (fun a b => by
            simp only [leB, Bool.or_eq_true, decide_eq_true_eq]
            by_cases hc : cmp (d a) (d b) ≤ 0
            · exact Or.inl hc
            · exact Or.inr (by have := t.total hc; omega)) ys ys'
          (s.imp (by intro a b h; simpa [leB] using h)) (s'.imp (by intro a b h; simpa [leB] using h))
        exact this.imp (by intro a b h; simpa [leB] using h)
  · intro k
    rw [List.filter_append, ← f k, ← f' k]
    unfold mergeD
    split
    · rw [List.filter_append]
    · split
      · rename_i hc0 hc
        -- every element of ys' is less than every element of ys: one side of the filter is empty
        rw [List.filter_append]
        by_cases hz : ys'.filter (fun x => cmp k (d x) = 0) = []
        · rw [hz]; simp
        · obtain ⟨b, hb⟩ := List.exists_mem_of_ne_nil _ hz
          simp only [List.mem_filter, decide_eq_true_eq] at hb
          have hnil : ys.filter (fun x => cmp k (d x) = 0) = [] := by
            rw [List.filter_eq_nil_iff]
            intro a ha
            have h1 : cmp (d b) (d (ys'.getLastD 0)) ≤ 0 := by
              have hb := hb.1
              obtain ⟨u, z, rfl⟩ := exists_concat (List.ne_nil_of_mem hb)
              rcases List.mem_append.1 hb with hb | hb
              · simpa using (List.pairwise_append.1 s').2.2 b hb z (by simp)
              · simp at hb; subst hb; simp [t.refl']
            have h2 : cmp (d (ys.headD 0)) (d a) ≤ 0 := by
              obtain ⟨z, u, rfl⟩ := List.exists_cons_of_ne_nil (List.ne_nil_of_mem ha)
              rcases List.mem_cons.1 ha with rfl | ha
              · simp [t.refl']
              · exact (List.pairwise_cons.1 s).1 a ha
            have h3 : cmp (d b) (d a) < 0 := by
              by_contra hcon
              have h4 : cmp (d a) (d b) ≤ 0 := by
                by_contra h5
                have := t.total h5; omega
              have h5 := t.trans _ _ _ h2 (t.trans _ _ _ h4 h1)
              have := (t.sign _ _).1 hc
              omega
            simpa using t.no_eq h3 hb.2
          rw [hnil]; simp
      · exact filter_merge t d k ys ys' s

/-! ### the simulation -/

/-- The list value `p` in the memory `h` holds the sequence `l`. -/
def Rep (h : Heap) (p : Ptr) (l : List (Ptr × Nat)) : Prop :=
  IsList h p (l.map Prod.fst) ∧ l = (l.map Prod.fst).map (fun x => (x, h.data x))

structure Inv (s : St) (a : Ab) : Prop where
  live : a.live = s.heap.valid
  live0 : a.live 0 = false
  addr : ∀ p, a.live p = true → p < 2 ^ sizeBit
  rep : ∀ v l, a.val v = some l → Rep s.heap (s.var v) l
  disj : ∀ v w l m, v ≠ w → a.val v = some l → a.val w = some m →
    ∀ p ∈ l.map Prod.fst, p ∉ m.map Prod.fst

theorem Inv.ok {s : St} {a : Ab} (i : Inv s a) {p : Ptr} (hp : a.live p = true) : s.heap.ok p := by
  refine ⟨?_, by rw [← i.live]; exact hp⟩
  rintro rfl
  rw [i.live0] at hp; cases hp

omit [Arch] in
theorem get_of_some {a : Ab} {v : Nat} {l} (h : a.val v = some l) : a.get v = l := by
  simp [Ab.get, h]

omit [Arch] in
theorem rep_data {h : Heap} {p : Ptr} {l} (r : Rep h p l) {x : Ptr × Nat} (hx : x ∈ l) :
    h.data x.1 = x.2 := by
  rw [r.2] at hx
  simp only [List.map_map, List.mem_map, Function.comp_apply] at hx
  obtain ⟨y, _, rfl⟩ := hx
  rfl

omit [Arch] in
theorem rep_frame {h h' : Heap} {S : Ptr → Prop} {p : Ptr} {l} (r : Rep h p l) (fr : Frame h h' S)
    (hd : ∀ x ∈ l.map Prod.fst, ¬ S x) (hdat : ∀ x ∈ l.map Prod.fst, h'.data x = h.data x) : Rep h' p l := by
  refine ⟨r.1.frame fr hd, ?_⟩
  conv_lhs => rw [r.2]
  apply List.map_congr_left
  intro x hx
  rw [hdat x hx]

omit [Arch] in
theorem rep_mk {h : Heap} {p : Ptr} {xs : List Ptr} (hl : IsList h p xs) :
    Rep h p (xs.map (fun x => (x, h.data x))) := by
  have : (xs.map (fun x => (x, h.data x))).map Prod.fst = xs := by simp [Function.comp_def]
  exact ⟨by rw [this]; exact hl, by rw [this]⟩

/-- Update of the list `v`, where the modified nodes are in no other list. -/
theorem Inv.update {s : St} {a : Ab} (i : Inv s a) {h' : Heap} {v : Nat} {p' : Ptr} {l'}
    {S : Ptr → Prop} {val' : Nat → Option (List (Ptr × Nat))}
    (hv : val' v = some l') (hr : Rep h' p' l') (fr : Frame s.heap h' S)
    (hdat : ∀ q, ¬ S q → h'.data q = s.heap.data q)
    (hsub : ∀ q ∈ l'.map Prod.fst, S q)
    (hw : ∀ w m, w ≠ v → val' w = some m → a.val w = some m ∧ ∀ q ∈ m.map Prod.fst, ¬ S q) :
    Inv { heap := h', var := upd s.var v p' } { a with val := val' } := by
  refine ⟨i.live.trans fr.valid.symm, i.live0, i.addr, ?_, ?_⟩
  · intro w m hm
    by_cases hwv : w = v
    · subst hwv
      have hm : val' w = some m := hm
      rw [hv] at hm; cases hm
      simpa using hr
    · obtain ⟨h1, h2⟩ := hw w m hwv hm
      simp only [upd_ne hwv]
      exact rep_frame (i.rep w m h1) fr h2 (fun x hx => hdat x (h2 x hx))
  · intro u w l m huw hl hm p hp hpm
    have hl : val' u = some l := hl
    have hm : val' w = some m := hm
    by_cases huv : u = v
    · subst huv
      rw [hv] at hl; cases hl
      exact (hw w m (Ne.symm huw) hm).2 p hpm (hsub p hp)
    · by_cases hwv : w = v
      · subst hwv
        rw [hv] at hm; cases hm
        exact (hw u l huv hl).2 p hp (hsub p hpm)
      · exact i.disj u w l m huw (hw u l huv hl).1 (hw w m hwv hm).1 p hp hpm

omit [Arch] in
theorem nodup_length_lt {xs : List Nat} {n : Nat} (hn : 0 < n) (nd : xs.Nodup)
    (hx : ∀ x ∈ xs, x ≠ 0 ∧ x < n) : xs.length < n := by
  have h0 : (0 :: xs).Nodup := List.nodup_cons.2 ⟨fun h => (hx 0 h).1 rfl, nd⟩
  have hs : (0 :: xs) ⊆ List.range n := by
    intro x h
    rcases List.mem_cons.1 h with rfl | h
    · exact List.mem_range.2 hn
    · exact List.mem_range.2 (hx x h).2
  have := (List.subperm_of_subset h0 hs).length_le
  simp at this
  omega

/-- The number of nodes of a list is a `size_t`. -/
theorem Inv.length_lt {s : St} {a : Ab} (i : Inv s a) {v : Nat} {l} (hl : a.val v = some l) :
    (l.map Prod.fst).length < 2 ^ sizeBit := by
  have hr := i.rep v l hl
  refine nodup_length_lt (by arch) hr.1.nodup ?_
  intro x hx
  have ok := hr.1.ok x hx
  exact ⟨ok.1, i.addr x (by rw [i.live]; exact ok.2)⟩

omit [Arch] in
theorem onHeap_run {α : Type} {m : HM α} {s : St} {r : α} {h : Heap} (e : m s.heap = some (r, h)) :
    onHeap m s = some (r, { s with heap := h }) := zoom_run e

theorem Inv.not_mem {s : St} {a : Ab} (_ : Inv s a) {p : Ptr} (hp : ¬ a.inList p) {v : Nat} {l}
    (hl : a.val v = some l) : p ∉ l.map Prod.fst := fun h => hp ⟨v, l, hl, h⟩

theorem sortOp {s : St} {a : Ab} (i : Inv s a) (v : Nat) (cmp : Nat → Nat → Int) {l}
    (hl : a.val v = some l) :
    ∃ l' s', step (.sort v cmp) s = some (.seq l', s') ∧ l'.Perm l ∧
      (TotalPreorder cmp → Sorted cmp l' ∧ Stable cmp l l') ∧
      Inv s' { a with val := upd a.val v (some l') } := by
  have hr := i.rep v l hl
  have hlen := i.length_lt hl
  -- one relation which gives both results
  obtain ⟨p', h', ys, e, il, hR, pm, hd, fr⟩ := listSort_spec cmp
    (R := fun xs ys => TotalPreorder cmp → StableSort cmp s.heap.data xs ys)
    (fun _ => ⟨by simp, by simp, by simp⟩) (fun x _ => ⟨by simp, by simp, by simp⟩)
    (fun xs ys xs' ys' h1 h2 t => stableSort_merge t _ _ _ _ _ (h1 t) (h2 t)) hr.1 hlen
  refine ⟨ys.map (fun x => (x, s.heap.data x)), { heap := h', var := upd s.var v p' }, ?_, ?_, ?_, ?_⟩
  · simp only [step, run_bind, getVar, Option.bind_some, onHeap_run e, setVar]
    rw [onHeap_run (s := { heap := h', var := upd s.var v p' }) (walk_spec il)]
    simp [hd]
  · conv_rhs => rw [hr.2]
    exact pm.map _
  · intro t
    obtain ⟨_, so, st⟩ := hR t
    refine ⟨?_, ?_⟩
    · unfold Sorted
      rw [List.pairwise_map]
      exact so
    · intro d
      conv_rhs => rw [hr.2]
      rw [List.filter_map, List.filter_map]
      congr 1
      have := st d
      simpa [Function.comp_def] using this
  · refine i.update (S := fun z => z ∈ l.map Prod.fst) (l' := ys.map (fun x => (x, s.heap.data x))) (by simp) ?_ fr (fun q _ => by rw [hd]) ?_ ?_
    · have := rep_mk il
      rw [hd] at this
      exact this
    · intro q hq
      simp only [List.map_map, Function.comp_def, List.map_id'] at hq
      exact pm.mem_iff.1 hq
    · intro w m hw hm
      rw [upd_ne hw] at hm
      exact ⟨hm, fun q hq hq2 => i.disj w v m l hw hm hl q hq hq2⟩

theorem step_inv (s : St) (a : Ab) (op : Op) (i : Inv s a) (hleg : legal a op) :
    ∃ out s', step op s = some (out, s') ∧ allowed a op out ∧ Inv s' (next a op out) := by
  cases op with
  | init v =>
    refine ⟨.unit, { s with var := upd s.var v 0 }, rfl, rfl, ?_⟩
    refine i.update (S := fun _ => False) (h' := s.heap) (v := v) (p' := 0) (l' := []) (by simp [next]) ⟨IsList.nil _, rfl⟩
      (Frame.refl _ _) (fun _ _ => rfl) (by simp) ?_
    intro w m hw hm
    rw [upd_ne hw] at hm
    exact ⟨hm, by simp⟩
  | insertHead v p d =>
    obtain ⟨hv, hp, hnl⟩ := hleg
    obtain ⟨l, hl⟩ := Option.isSome_iff_exists.1 hv
    have hr := i.rep v l hl
    obtain ⟨h', e, il, hd, fr⟩ := listInsertHead_spec d hr.1 (i.ok hp) (i.not_mem hnl hl)
    refine ⟨.unit, { heap := h', var := upd s.var v p }, ?_, rfl, ?_⟩
    · simp only [step, run_bind, getVar, Option.bind_some, onHeap_run e, setVar, run_pure]
    · refine i.update (S := fun q => q = p ∨ q ∈ l.map Prod.fst) (by simp [next]; rfl) ?_ fr ?_ ?_ ?_
      · rw [get_of_some hl]
        refine ⟨il, ?_⟩
        simp only [List.map_cons, hd, upd_same]
        congr 1
        conv_lhs => rw [hr.2]
        apply List.map_congr_left
        intro x hx
        have hxp : x ≠ p := fun e => i.not_mem hnl hl (e ▸ hx)
        rw [upd_ne hxp]
      · intro q hq; rw [hd, upd_ne (fun e => hq (Or.inl e))]
      · rw [get_of_some hl]; intro q hq; simpa using hq
      · intro w m hw hm
        rw [upd_ne hw] at hm
        refine ⟨hm, ?_⟩
        rintro q hq (rfl | hq2)
        · exact i.not_mem hnl hm hq
        · exact i.disj w v m l hw hm hl q hq hq2
  | insertTail v p d =>
    obtain ⟨hv, hp, hnl⟩ := hleg
    obtain ⟨l, hl⟩ := Option.isSome_iff_exists.1 hv
    have hr := i.rep v l hl
    obtain ⟨p', h', e, il, hd, fr⟩ := listInsertTail_spec d hr.1 (i.ok hp) (i.not_mem hnl hl)
    refine ⟨.unit, { heap := h', var := upd s.var v p' }, ?_, rfl, ?_⟩
    · simp only [step, run_bind, getVar, Option.bind_some, onHeap_run e, setVar, run_pure]
    · refine i.update (S := fun q => q = p ∨ q ∈ l.map Prod.fst) (by simp [next]; rfl) ?_ fr ?_ ?_ ?_
      · rw [get_of_some hl]
        refine ⟨by simpa using il, ?_⟩
        simp only [List.map_append, List.map_cons, List.map_nil, hd, upd_same]
        congr 1
        conv_lhs => rw [hr.2]
        apply List.map_congr_left
        intro x hx
        have hxp : x ≠ p := fun e => i.not_mem hnl hl (e ▸ hx)
        rw [upd_ne hxp]
      · intro q hq; rw [hd, upd_ne (fun e => hq (Or.inl e))]
      · rw [get_of_some hl]; intro q hq; simp at hq ⊢; tauto
      · intro w m hw hm
        rw [upd_ne hw] at hm
        refine ⟨hm, ?_⟩
        rintro q hq (rfl | hq2)
        · exact i.not_mem hnl hm hq
        · exact i.disj w v m l hw hm hl q hq hq2
  | removeExisting v p =>
    obtain ⟨l, hl, hp⟩ := hleg
    have hr := i.rep v l hl
    obtain ⟨x, hx, rfl⟩ := List.mem_map.1 hp
    obtain ⟨as, bs, rfl⟩ := List.append_of_mem hx
    have hl1 := hr.1
    simp only [List.map_append, List.map_cons] at hl1
    obtain ⟨p', h', e, il, hd, fr⟩ := listRemoveExisting_spec hl1
    refine ⟨.val (s.heap.data x.1), { heap := h', var := upd s.var v p' }, ?_, ?_, ?_⟩
    · simp only [step, run_bind, getVar, Option.bind_some, onHeap_run e, setVar, run_pure]
    · refine ⟨_, rfl, ?_⟩
      rw [get_of_some hl, rep_data hr hx]
      exact hx
    · have hnd := hl1.nodup
      have hfil : (as ++ x :: bs).filter (fun y => y.1 ≠ x.1) = as ++ bs := by
        have h1 : ∀ y ∈ as, y.1 ≠ x.1 := fun y hy =>
          (List.nodup_append.1 hnd).2.2 y.1 (List.mem_map_of_mem hy) x.1 (by simp)
        have h2 : ∀ y ∈ bs, y.1 ≠ x.1 := fun y hy e =>
          (List.nodup_cons.1 (List.nodup_append.1 hnd).2.1).1 (e ▸ List.mem_map_of_mem hy)
        rw [List.filter_append, List.filter_cons]
        simp only [ne_eq, not_true_eq_false, decide_false, Bool.false_eq_true, if_false]
        rw [List.filter_eq_self.2 (by simpa using h1), List.filter_eq_self.2 (by simpa using h2)]
      refine i.update (S := fun q => q ∈ (as ++ x :: bs).map Prod.fst) (by simp only [next, upd_same]; rw [get_of_some hl, hfil]) ?_
        (fr.mono (by simp)) (fun q _ => by rw [hd]) ?_ ?_
      · refine ⟨by simpa using il, ?_⟩
        rw [hd]
        have h2 := hr.2
        apply (List.map_id (as ++ bs)).symm.trans
        rw [List.map_map]
        apply List.map_congr_left
        intro y hy
        have : y ∈ as ++ x :: bs := by simp at hy ⊢; tauto
        have := rep_data hr this
        simp [this]
      · intro q hq; simp at hq ⊢; tauto
      · intro w m hw hm
        simp only [next, upd_ne hw] at hm
        exact ⟨hm, fun q hq hq2 => i.disj w v m _ hw hm hl q hq hq2⟩
  | concat v w =>
    obtain ⟨hvw, hv, hw⟩ := hleg
    obtain ⟨l, hl⟩ := Option.isSome_iff_exists.1 hv
    obtain ⟨m, hm⟩ := Option.isSome_iff_exists.1 hw
    have hr := i.rep v l hl
    have hs := i.rep w m hm
    obtain ⟨p', h', e, il, hd, fr⟩ := listConcat_spec hr.1 hs.1 (i.disj v w l m hvw hl hm)
    refine ⟨.unit, { heap := h', var := upd s.var v p' }, ?_, rfl, ?_⟩
    · simp only [step, run_bind, getVar, Option.bind_some, onHeap_run e, setVar, run_pure]
    · refine i.update (S := fun q => q ∈ (l ++ m).map Prod.fst) (l' := l ++ m) ?_ ?_ (fr.mono (by simp))
        (fun q _ => by rw [hd]) (fun q hq => hq) ?_
      · rw [upd_ne hvw, upd_same, get_of_some hl, get_of_some hm]
      · refine ⟨by simpa using il, ?_⟩
        rw [List.map_append, List.map_append, hd, ← hr.2, ← hs.2]
      · intro u k hu hk
        by_cases huw : u = w
        · subst huw; simp at hk
        · rw [upd_ne huw, upd_ne hu] at hk
          refine ⟨hk, fun q hq hq2 => ?_⟩
          rw [List.map_append] at hq2
          rcases List.mem_append.1 hq2 with h2 | h2
          · exact i.disj u v k l hu hk hl q hq h2
          · exact i.disj u w k m huw hk hm q hq h2
  | sort v cmp =>
    obtain ⟨l, hl⟩ := Option.isSome_iff_exists.1 hleg
    obtain ⟨l', s', e, pm, so, inv⟩ := sortOp i v cmp hl
    exact ⟨_, s', e, ⟨l', rfl, by rw [get_of_some hl]; exact ⟨pm, so⟩⟩, inv⟩
  | head v =>
    obtain ⟨l, hl⟩ := Option.isSome_iff_exists.1 hleg
    refine ⟨_, s, rfl, ?_, i⟩
    simp only [allowed, get_of_some hl, listHead]
    rw [(i.rep v l hl).1.head]
  | tail v =>
    obtain ⟨l, hl⟩ := Option.isSome_iff_exists.1 hleg
    have hr := i.rep v l hl
    refine ⟨.val ((l.map Prod.fst).getLastD 0), s, ?_, by simp only [allowed, get_of_some hl], i⟩
    simp only [step, run_bind, getVar, Option.bind_some, onHeap_run (listTail_spec hr.1), run_pure]
  | empty v =>
    obtain ⟨l, hl⟩ := Option.isSome_iff_exists.1 hleg
    have hr := i.rep v l hl
    refine ⟨_, s, rfl, ?_, i⟩
    simp only [allowed, get_of_some hl, listEmpty, listHead]
    have := hr.1.eq_zero_iff
    by_cases h0 : s.var v = 0
    · simp [h0, by simpa using this.1 h0]
    · have : l ≠ [] := fun e => h0 (this.2 (by simp [e]))
      simp [h0, this]
  | count v =>
    obtain ⟨l, hl⟩ := Option.isSome_iff_exists.1 hleg
    have hr := i.rep v l hl
    refine ⟨.val l.length, s, ?_, by simp only [allowed, get_of_some hl], i⟩
    simp only [step, run_bind, getVar, Option.bind_some, onHeap_run (listCount_spec hr.1), run_pure]
    simp
  | walk v =>
    obtain ⟨l, hl⟩ := Option.isSome_iff_exists.1 hleg
    have hr := i.rep v l hl
    refine ⟨.seq l, s, ?_, by simp only [allowed, get_of_some hl], i⟩
    simp only [step, run_bind, getVar, Option.bind_some, onHeap_run (walk_spec hr.1), run_pure]
    rw [← hr.2]
  | alloc p =>
    obtain ⟨hp0, hp, hlv⟩ := hleg
    refine ⟨.unit, _, rfl, rfl, ⟨?_, ?_, ?_, ?_, i.disj⟩⟩
    · simp only [next, i.live]
    · simp only [next]; rw [upd_ne (Ne.symm hp0)]; exact i.live0
    · intro q hq
      simp only [next, upd_apply] at hq
      split at hq
      · rename_i e; rw [e]; exact hp
      · exact i.addr q hq
    · intro v l hl
      have hr := i.rep v l hl
      refine ⟨hr.1.congr ?_ (fun _ _ => rfl) (fun _ _ => rfl), hr.2⟩
      intro x _ hx
      refine ⟨hx.1, ?_⟩
      simp only [upd_apply]; split
      · rfl
      · exact hx.2
  | free p =>
    obtain ⟨hlv, hnl⟩ := hleg
    refine ⟨.unit, _, rfl, rfl, ⟨?_, ?_, ?_, ?_, i.disj⟩⟩
    · simp only [next, i.live]
    · simp only [next, upd_apply]; split
      · rfl
      · exact i.live0
    · intro q hq
      simp only [next, upd_apply] at hq
      split at hq
      · cases hq
      · exact i.addr q hq
    · intro v l hl
      have hr := i.rep v l hl
      refine ⟨hr.1.congr ?_ (fun _ _ => rfl) (fun _ _ => rfl), hr.2⟩
      intro x hm hx
      refine ⟨hx.1, ?_⟩
      have hxp : x ≠ p := fun e => i.not_mem hnl hl (e ▸ hm)
      simp only
      rw [upd_ne hxp]
      exact hx.2
  | scribble p n q d j =>
    obtain ⟨hlv, hnl⟩ := hleg
    refine ⟨.unit, _, rfl, rfl, ⟨i.live, i.live0, i.addr, ?_, i.disj⟩⟩
    intro v l hl
    have hr := i.rep v l hl
    have hne : ∀ x ∈ l.map Prod.fst, x ≠ p := fun x hx e => i.not_mem hnl hl (e ▸ hx)
    refine ⟨hr.1.congr (fun x _ hx => hx) (fun x hx => upd_ne (hne x hx)) (fun x hx => upd_ne (hne x hx)), ?_⟩
    conv_lhs => rw [hr.2]
    apply List.map_congr_left
    intro x hx
    simp only
    rw [upd_ne (hne x hx)]
  | setIndex p j =>
    refine ⟨.unit, _, rfl, rfl, ⟨i.live, i.live0, i.addr, ?_, i.disj⟩⟩
    intro v l hl
    have hr := i.rep v l hl
    exact ⟨hr.1.congr (fun x _ hx => hx) (fun _ _ => rfl) (fun _ _ => rfl), hr.2⟩

theorem init_inv (s : St) (a : Ab) (h : sys.init s a) : Inv s a := by
  obtain ⟨h1, h2, h3, h4⟩ := h
  refine ⟨h2, h3, h4, ?_, ?_⟩
  · intro v l hl; rw [h1] at hl; cases hl
  · intro v w l m _ hl; rw [h1] at hl; cases hl

theorem reach_inv {s : St} {a : Ab} (hr : sys.Reach s a) : Inv s a :=
  Sys.reach_inv (Inv := Inv) init_inv step_inv s a hr

end ListSpec
end Tommy
