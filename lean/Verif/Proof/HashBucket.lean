import Verif.Spec.HashBucket
import Verif.Proof.HashProps
import Verif.Proof.LinPath
/-! The loops of search and remove read only the nodes of the bucket, which are the elements that collide. -/
set_option linter.unusedSimpArgs false
namespace Tommy

variable [Arch]
namespace HashSpec

omit [Arch] in
theorem searchWithin_spec (cmp : Nat → Int) (hash : Nat) {h : Heap} (L : List Elem) : ∀ n, L.length ≤ n →
    (∀ e ∈ L, h.ok e.node) → Fwd h (L.map Elem.node) 0 →
    (∀ e ∈ L, h.data e.node = e.data) → (∀ e ∈ L, h.index e.node = e.hash) →
    searchWithin cmp hash n ((L.map Elem.node).headD 0) h =
      some (((L.find? (hit cmp hash)).map Elem.data).getD 0, h) := by
  induction L with
  | nil => intro n; cases n <;> intros <;> simp [searchWithin]
  | cons e L ih =>
    intro n hn ok fw da ix
    obtain ⟨n, rfl⟩ : ∃ k, n = k + 1 := ⟨n - 1, by simp at hn; omega⟩
    have oe := ok e (by simp)
    have ih := ih n (by simpa using hn) (fun x hx => ok x (by simp [hx])) fw.2 (fun x hx => da x (by simp [hx]))
      (fun x hx => ix x (by simp [hx]))
    rw [List.map_cons, List.headD_cons, searchWithin]
    have h0 : e.node ≠ 0 := oe.1
    have hn : h.next e.node = (L.map Elem.node).headD 0 := fw.1
    simp only [h0, if_false, run_ite, run_bind, getIndex_run oe, Option.bind_some, ix e (by simp),
      getData_run oe, getNext_run oe, da e (by simp), hn, ih, run_pure]
    by_cases hh : e.hash = hash
    · by_cases hc : cmp e.data = 0
      · simp [hh, hc, hit]
      · simp [hh, hc, hit]
    · simp [hh, hit]

omit [Arch] in
theorem findWithin_spec (cmp : Nat → Int) (hash : Nat) {h : Heap} (L : List Elem) : ∀ n, L.length ≤ n →
    (∀ e ∈ L, h.ok e.node) → Fwd h (L.map Elem.node) 0 →
    (∀ e ∈ L, h.data e.node = e.data) → (∀ e ∈ L, h.index e.node = e.hash) →
    findWithin cmp hash n ((L.map Elem.node).headD 0) h =
      some (((L.find? (hit cmp hash)).map Elem.node).getD 0, h) := by
  induction L with
  | nil => intro n; cases n <;> intros <;> simp [findWithin]
  | cons e L ih =>
    intro n hn ok fw da ix
    obtain ⟨n, rfl⟩ : ∃ k, n = k + 1 := ⟨n - 1, by simp at hn; omega⟩
    have oe := ok e (by simp)
    have ih := ih n (by simpa using hn) (fun x hx => ok x (by simp [hx])) fw.2 (fun x hx => da x (by simp [hx]))
      (fun x hx => ix x (by simp [hx]))
    rw [List.map_cons, List.headD_cons, findWithin]
    have h0 : e.node ≠ 0 := oe.1
    have hn : h.next e.node = (L.map Elem.node).headD 0 := fw.1
    simp only [h0, if_false, run_ite, run_bind, getIndex_run oe, Option.bind_some, ix e (by simp),
      getData_run oe, getNext_run oe, da e (by simp), hn, ih, run_pure]
    by_cases hh : e.hash = hash
    · by_cases hc : cmp e.data = 0
      · simp [hh, hc, hit]
      · simp [hh, hc, hit]
    · simp [hh, hit]

omit [Arch] in
theorem ERep.searchWithin {h : Heap} {p : Ptr} {L : List Elem} (r : ERep h p L) (cmp : Nat → Int) (hash : Nat)
    {n : Nat} (hn : L.length ≤ n) :
    HashSpec.searchWithin cmp hash n p h = hashSearchLoop cmp hash p h := by
  rw [r.search, r.list.head]
  exact searchWithin_spec cmp hash L n hn (fun e he => r.ok he) r.list.seg.fwd r.data r.index

omit [Arch] in
theorem ERep.findWithin {h : Heap} {p : Ptr} {L : List Elem} (r : ERep h p L) (cmp : Nat → Int) (hash : Nat)
    {n : Nat} (hn : L.length ≤ n) :
    HashSpec.findWithin cmp hash n p h = hashFindLoop cmp hash p h := by
  rw [r.find, r.list.head]
  exact findWithin_spec cmp hash L n hn (fun e he => r.ok he) r.list.seg.fwd r.data r.index

variable {m : Mem} {ref : Nat → Ref} {act : Nat → Prop} {place : Nat → Nat} {B : Nat → List Elem} {es : List Elem}

omit [Arch] in
/-- The bucket of `h` holds the elements with the same hash modulo `M`. -/
theorem BInv.permCollide (i : BInv m ref act place B es) {h M : Nat}
    (hM : ∀ x, place x = place h ↔ x % M = h % M) : (B (place h)).Perm (collide es M h) := by
  obtain ⟨p, _, r⟩ := i.cells _ (i.place_act h)
  have nd : es.Nodup := List.Nodup.of_map _ i.nodup
  refine (List.perm_ext_iff_of_nodup r.nodup (nd.filter _)).2 fun e => ?_
  rw [i.mem_iff (i.place_act h), List.mem_filter, hM]
  simp

omit [Arch] in
/-- The same of the whole: a cell read through `ref (place h)`. -/
theorem BInv.look (i : BInv m ref act place B es) {h M : Nat}
    (hM : ∀ x, place x = place h ↔ x % M = h % M) :
    ∃ p, m.cell? (ref (place h)) = some p ∧
      (∃ l, onNodes (walkLoop p []) m = some (l, m) ∧ l.Perm (collide es M h)) ∧
      (∀ e ∈ collide es M h, place e.hash = place h) ∧
      (∀ cmp hp, (∀ e ∈ collide es M h, SameAt m.heap hp e.node) →
        onNodes (hashSearchLoop cmp h p) { m with heap := hp } =
          some (((es.find? (hit cmp h)).map Elem.data).getD 0, { m with heap := hp })) ∧
      ∀ n, (collide es M h).length ≤ n → ∀ cmp,
        onNodes (searchWithin cmp h n p) m = onNodes (hashSearchLoop cmp h p) m ∧
        onNodes (findWithin cmp h n p) m = onNodes (hashFindLoop cmp h p) m := by
  obtain ⟨p, hp, r⟩ := i.cells _ (i.place_act h)
  have pm := i.permCollide hM
  refine ⟨p, hp, ⟨_, onNodes_run r.walk, pm⟩, fun e he => ?_, fun cmp hp hs => ?_, fun n hn cmp => ?_⟩
  · have := (List.mem_filter.1 he).2
    exact (hM _).2 (by simpa using this)
  · have r' : ERep hp p (B (place h)) := r.same fun e he => by
      obtain ⟨h1, h2, h3, h4, h5⟩ := hs e (pm.mem_iff.1 he)
      exact ⟨fun o => ⟨o.1, h1.trans o.2⟩, h2, h3, h4, h5⟩
    rw [onNodes_run (m := { m with heap := hp }) (r'.search cmp h), i.find]
  · have hl : (B (place h)).length ≤ n := by rw [pm.length_eq]; exact hn
    constructor
    · simp only [onNodes, zoom, r.searchWithin cmp h hl]
    · simp only [onNodes, zoom, r.findWithin cmp h hl]

/-- The modulus of the bucket of `h` in tommy_hashlin. -/
def linMod (t : Hashlin) (h : Nat) : Nat := if h % t.lowMax < t.split then 2 * t.lowMax else t.lowMax

omit [Arch] in
theorem lplace_iff {M k : Nat} (x h : Nat) (hM : 0 < M) :
    lplace M (below k) x = lplace M (below k) h ↔
      x % (if h % M < k then 2 * M else M) = h % (if h % M < k then 2 * M else M) := by
  have hx1 := Nat.mod_lt x hM
  have hh1 := Nat.mod_lt h hM
  have hx := mod_two_mul x hM
  have hh := mod_two_mul h hM
  unfold lplace below
  simp only [decide_eq_true_eq]
  split <;> split <;> omega

variable {m0 : Mem}

theorem tbl_collide {t : Hashtable} {a : Ab} (i : TblInv m0 t m a.elems) (h : Nat) :
    OnlyCollide hashtableImpl hashtableRemoveIn ⟨m, t⟩ a h t.bucketMax := by
  obtain ⟨B, b⟩ := i.flat.binv
  obtain ⟨p, hp, ⟨l, hl, pm⟩, hs, ho, hw⟩ := b.look (h := h) (M := t.bucketMax) (fun x => Iff.rfl)
  constructor
  · refine ⟨l, ?_, pm⟩
    simp only [walkBucket, hashtableImpl, hashtableBucket, i.and_mask, run_bind, readRef_run hp, Option.bind_some, hl]
  · intro e he
    simp only [hashtableImpl, hashtableBucket, i.and_mask, hs e he]
  · intro cmp hp' hs'
    have hc : ({ m with heap := hp' } : Mem).cell? _ = some p := hp
    simp only [hashtableImpl, hashtableSearch, hashtableBucket, i.and_mask, run_bind, readRef_run hc, Option.bind_some, ho cmp hp' hs']
  · intro cmp n hn
    simp only [searchIn, hashtableImpl, hashtableSearch, hashtableBucket, i.and_mask, run_bind, readRef_run hp,
      Option.bind_some, (hw n hn cmp).1]
  · intro cmp n hn
    simp only [hashtableRemoveIn, hashtableImpl, hashtableRemove, i.and_mask, run_bind, readRef_run hp,
      Option.bind_some, (hw n hn cmp).2]

theorem dyn_collide {t : Hashdyn} {a : Ab} (i : DynBase m0 t m a.elems) (h : Nat) :
    OnlyCollide hashdynImpl hashdynRemoveIn ⟨m, t⟩ a h t.bucketMax := by
  obtain ⟨B, b⟩ := i.flat.binv
  obtain ⟨p, hp, ⟨l, hl, pm⟩, hs, ho, hw⟩ := b.look (h := h) (M := t.bucketMax) (fun x => Iff.rfl)
  constructor
  · refine ⟨l, ?_, pm⟩
    simp only [walkBucket, hashdynImpl, hashdynBucket, i.and_mask, run_bind, readRef_run hp, Option.bind_some, hl]
  · intro e he
    simp only [hashdynImpl, hashdynBucket, i.and_mask, hs e he]
  · intro cmp hp' hs'
    have hc : ({ m with heap := hp' } : Mem).cell? _ = some p := hp
    simp only [hashdynImpl, hashdynSearch, hashdynBucket, i.and_mask, run_bind, readRef_run hc, Option.bind_some, ho cmp hp' hs']
  · intro cmp n hn
    simp only [searchIn, hashdynImpl, hashdynSearch, hashdynBucket, i.and_mask, run_bind, readRef_run hp,
      Option.bind_some, (hw n hn cmp).1]
  · intro cmp n hn
    simp only [hashdynRemoveIn, hashdynImpl, hashdynRemove, i.and_mask, run_bind, readRef_run hp,
      Option.bind_some, (hw n hn cmp).2]

theorem lin_collide {t : Hashlin} {a : Ab} (i : LinBase m0 t m a.elems) (h : Nat) :
    OnlyCollide hashlinImpl hashlinRemoveIn ⟨m, t⟩ a h (linMod t h) := by
  obtain ⟨B, b⟩ := i.binv
  obtain ⟨p, hp, ⟨l, hl, pm⟩, hs, ho, hw⟩ := b.look (h := h) (M := linMod t h)
    (fun x => lplace_iff x h i.low_pos)
  constructor
  · refine ⟨l, ?_, pm⟩
    simp only [walkBucket, hashlinImpl, hashlinBucket, i.bucketRef, run_bind, readRef_run hp, Option.bind_some, hl]
  · intro e he
    simp only [hashlinImpl, hashlinBucket, i.bucketRef, run_bind, Option.bind_some, hs e he]
  · intro cmp hp' hs'
    have hc : ({ m with heap := hp' } : Mem).cell? _ = some p := hp
    simp only [hashlinImpl, hashlinSearch, hashlinBucket, i.bucketRef, run_bind, readRef_run hc, Option.bind_some, ho cmp hp' hs']
  · intro cmp n hn
    simp only [searchIn, hashlinImpl, hashlinSearch, hashlinBucket, i.bucketRef, run_bind, readRef_run hp,
      Option.bind_some, (hw n hn cmp).1]
  · intro cmp n hn
    simp only [hashlinRemoveIn, hashlinImpl, hashlinRemove, i.bucketRef, run_bind, readRef_run hp,
      Option.bind_some, (hw n hn cmp).2]

theorem linMod_pow {t : Hashlin} {es : List Elem} (i : LinInv m0 t m es) (h : Nat) :
    (∃ k, linMod t h = 2 ^ k) ∧ 64 ≤ linMod t h ∧ es.length ≤ linMod t h := by
  obtain ⟨k, hk⟩ := i.low_pow
  have hlow : 64 ≤ t.lowMax ∧ es.length ≤ t.lowMax := by
    have hc : (Hashlin.num t).count = es.length := i.count
    have hlo : (Hashlin.num t).low = t.lowMax := i.low.symm
    have hst : (Hashlin.num t).state = t.state := rfl
    have hbit : (Hashlin.num t).bit = t.bucketBit := rfl
    obtain ⟨i1, i2, i3, i4⟩ := i.num
    rw [hc, hst] at i2 i3 i4
    rw [hbit] at i1 i2 i3 i4
    have h6 : 2 ^ 6 ≤ 2 ^ t.bucketBit := Nat.pow_le_pow_right (by omega) i1
    have hl2 := hlo
    rw [Num.low, hst, hbit] at hl2
    cases hs : t.state with
    | stable =>
      have := i2 hs
      rw [if_pos hs] at hl2
      omega
    | grow =>
      have := i3 hs
      rw [if_neg (by simp [hs])] at hl2
      have h6' : 2 ^ 6 ≤ 2 ^ (t.bucketBit - 1) := Nat.pow_le_pow_right (by omega) (by omega)
      omega
    | shrink =>
      have := i4 hs
      rw [if_neg (by simp [hs])] at hl2
      have h6' : 2 ^ 6 ≤ 2 ^ (t.bucketBit - 1) := Nat.pow_le_pow_right (by omega) (by omega)
      omega
  unfold linMod
  split
  · exact ⟨⟨k + 1, by rw [hk, Nat.pow_succ]; omega⟩, by omega, by omega⟩
  · exact ⟨⟨k, hk⟩, hlow⟩

omit [Arch] in
theorem OnlyCollide.le {T : Type} {I : Impl T} {rm} {s : St T} {a : Ab} {h M : Nat} (o : OnlyCollide I rm s a h M)
    {c : Nat} (hc : (collide a.elems M h).length ≤ c) :
    ∃ l, walkBucket I s.tbl h s.mem = some (l, s.mem) ∧ l.length ≤ c := by
  obtain ⟨l, e, p⟩ := o.bucket
  exact ⟨l, e, by rw [p.length_eq]; exact hc⟩

omit [Arch] in
/-- Different hashes, all less than `M`, do not collide. -/
theorem collide_le_one {es : List Elem} {M : Nat} (nd : (es.map Elem.hash).Nodup) (hm : ∀ e ∈ es, e.hash < M) (h : Nat) :
    (collide es M h).length ≤ 1 := by
  have nd2 : ((collide es M h).map Elem.hash).Nodup := nd.sublist (List.filter_sublist.map _)
  have all : ∀ x ∈ (collide es M h).map Elem.hash, x = h % M := by
    intro x hx
    obtain ⟨e, he, rfl⟩ := List.mem_map.1 hx
    obtain ⟨he, h2⟩ := List.mem_filter.1 he
    have := hm e he
    rw [← Nat.mod_eq_of_lt this]
    simpa using h2
  have := (List.subperm_of_subset nd2 (l₂ := [h % M]) (fun x hx => by simp [all x hx])).length_le
  simpa using this

/-- The number of buckets of tommy_hashtable does not change. -/
theorem tbl_step_max {op : Op} {s s' : St Hashtable} {o : Out} (e : step hashtableImpl op s = some (o, s')) :
    s'.tbl.bucketMax = s.tbl.bucketMax := by
  cases op with
  | insert p d h =>
    simp only [step, hashtableImpl, hashtableInsert, run_bind, run_pure, Option.map_eq_some_iff, Option.bind_eq_some_iff] at e
    obtain ⟨x, ⟨_, _, _, _, hx⟩, ex⟩ := e
    injection hx with hx; subst hx
    injection ex with _ ex; subst ex
    rfl
  | remove cmp h =>
    simp only [step, hashtableImpl, hashtableRemove, run_bind, run_pure, Option.map_eq_some_iff, Option.bind_eq_some_iff] at e
    obtain ⟨x, ⟨_, _, _, _, hx⟩, ex⟩ := e
    split at hx
    · simp only [run_bind, run_pure, Option.bind_eq_some_iff] at hx
      obtain ⟨_, _, _, _, hx⟩ := hx
      injection hx with hx; subst hx
      injection ex with _ ex; subst ex
      rfl
    · injection hx with hx; subst hx
      injection ex with _ ex; subst ex
      rfl
  | removeExisting p =>
    simp only [step, hashtableImpl, hashtableRemoveExisting, run_bind, run_pure, Option.map_eq_some_iff, Option.bind_eq_some_iff] at e
    obtain ⟨x, ⟨_, _, _, _, _, _, hx⟩, ex⟩ := e
    injection hx with hx; subst hx
    injection ex with _ ex; subst ex
    rfl
  | search cmp h =>
    simp only [step, Option.map_eq_some_iff] at e
    obtain ⟨_, _, ex⟩ := e
    injection ex with _ ex; subst ex
    rfl
  | bucket h =>
    simp only [step, Option.map_eq_some_iff] at e
    obtain ⟨_, _, ex⟩ := e
    injection ex with _ ex; subst ex
    rfl
  | count | alloc | free | scribble =>
    simp only [step] at e
    injection e with e; injection e with _ e; subst e
    rfl

theorem tbl_max {n : Nat} (hn : n ≤ maxBuckets) {m0 : Mem} {s : St Hashtable} {a : Ab}
    (hr : (sys hashtableImpl (hashtableInit n) m0).Reach s a) :
    max n 16 ≤ s.tbl.bucketMax ∧ ∀ j, max n 16 ≤ 2 ^ j → s.tbl.bucketMax ≤ 2 ^ j := by
  induction hr with
  | init h =>
    obtain ⟨h0, e, _, _⟩ := h
    obtain ⟨t, m, e', _, _, h1⟩ := hashtableInit_spec hn h0
    rw [e] at e'
    injection e' with e'; injection e' with e' _
    rw [e']; exact h1
  | step _ _ e ih => rw [tbl_step_max e]; exact ih

end HashSpec
end Tommy
