import Verif.Model.Free
import Verif.Spec.Free
import Verif.Proof.HashProps
/-!
  Proofs for C64.
-/
namespace Tommy

variable [Arch]
namespace FreeSpec

omit [Arch] in
theorem nodeIn_iff {offs : List Nat} {d : Nat} {p : Ptr} : nodeIn offs d p = true ↔ ∃ o ∈ offs, p = d + o := by
  simp [nodeIn]

variable {offs : List Nat} {junk : Heap}

/-- The payloads of a list of elements. -/
structure Pay (live : Ptr → Bool) (offs : List Nat) (ds : List Nat) : Prop where
  nodup : ds.Nodup
  nonzero : ∀ d ∈ ds, d ≠ 0
  alive : ∀ d ∈ ds, ∀ o ∈ offs, live (d + o) = true
  apart : ∀ d ∈ ds, ∀ d' ∈ ds, ∀ o ∈ offs, ∀ o' ∈ offs, d + o = d' + o' → d = d'

omit [Arch] in
theorem Objects.pay {live : Ptr → Bool} {off : Nat} {es : List (Ptr × Nat)} (w : Objects live offs off es)
    {L : List (Ptr × Nat)} (hp : L.Perm es) (nd : (es.map Prod.fst).Nodup) : Pay live offs (L.map Prod.snd) := by
  have nd' : (L.map Prod.fst).Nodup := (hp.map _).nodup_iff.2 nd
  have e : L.map Prod.fst = (L.map Prod.snd).map (· + off) := by
    rw [List.map_map]
    exact List.map_congr_left fun x hx => w.node x (hp.mem_iff.1 hx)
  rw [e] at nd'
  refine ⟨nd'.of_map, ?_, ?_, ?_⟩
  · intro d hd
    obtain ⟨x, hx, rfl⟩ := List.mem_map.1 hd
    exact w.nonzero x (hp.mem_iff.1 hx)
  · intro d hd
    obtain ⟨x, hx, rfl⟩ := List.mem_map.1 hd
    exact w.alive x (hp.mem_iff.1 hx)
  · intro d hd d' hd'
    obtain ⟨x, hx, rfl⟩ := List.mem_map.1 hd
    obtain ⟨y, hy, rfl⟩ := List.mem_map.1 hd'
    exact w.apart x (hp.mem_iff.1 hx) y (hp.mem_iff.1 hy)

omit [Arch] in
theorem objFree_some {h : Heap} {d : Nat} (h0 : d ≠ 0) (hv : ∀ o ∈ offs, h.valid (d + o) = true) :
    ∃ h', objFree offs junk d h = some ((), h') := by
  simp only [objFree]
  rw [if_pos ⟨h0, by simpa using hv⟩]
  exact ⟨_, rfl⟩

omit [Arch] in
theorem objFree_freed {h h' : Heap} {d : Nat} (e : objFree offs junk d h = some ((), h')) : Freed offs [d] h h' := by
  simp only [objFree] at e
  split at e
  · injection e with e
    injection e with _ e
    subst e
    refine ⟨fun p hp => ?_, fun p hp => ?_⟩
    · have : nodeIn offs d p = true := nodeIn_iff.2 (by simpa [Inside] using hp)
      simp [this]
    · have : nodeIn offs d p = false := by
        rw [← Bool.not_eq_true, nodeIn_iff]
        simpa [Inside] using hp
      simp [this]
  · cases e

omit [Arch] in
theorem callAll_free : ∀ (ds : List Nat) (h : Heap), Pay h.valid offs ds →
    ∃ h', ListSpec.callAll (objFree offs junk) ds h = some ((), h') ∧ Freed offs ds h h'
  | [], h, _ => ⟨h, rfl, fun p hp => by simp [Inside] at hp, fun p _ => ⟨rfl, rfl, rfl, rfl, rfl⟩⟩
  | d :: ds, h, w => by
    obtain ⟨h1, e1⟩ := objFree_some (junk := junk) (w.nonzero d (by simp)) (w.alive d (by simp))
    have f1 := objFree_freed e1
    have nd := List.nodup_cons.1 w.nodup
    have w' : Pay h1.valid offs ds := by
      refine ⟨nd.2, fun x hx => w.nonzero x (by simp [hx]), fun x hx o ho => ?_, fun x hx y hy => w.apart x (by simp [hx]) y (by simp [hy])⟩
      rw [(f1.2 _ _).1]
      · exact w.alive x (by simp [hx]) o ho
      · rintro ⟨d', hd', o', ho', e⟩
        rw [List.mem_singleton] at hd'
        subst hd'
        have := w.apart x (by simp [hx]) d' (by simp) o ho o' ho' e
        subst this
        exact nd.1 hx
    obtain ⟨h2, e2, f2⟩ := callAll_free ds h1 w'
    refine ⟨h2, by simp only [ListSpec.callAll, run_bind, e1, Option.bind_some]; exact e2, fun p hp => ?_, fun p hp => ?_⟩
    · by_cases hq : Inside offs ds p
      · exact f2.1 p hq
      · rw [(f2.2 p hq).1]
        obtain ⟨d', hd', o, ho, e⟩ := hp
        rcases List.mem_cons.1 hd' with rfl | hd'
        · exact f1.1 p ⟨d', by simp, o, ho, e⟩
        · exact absurd ⟨d', hd', o, ho, e⟩ hq
    · have a1 := f1.2 p (by rintro ⟨d', hd', r⟩; exact hp ⟨d', by simp at hd'; simp [hd'], r⟩)
      have a2 := f2.2 p (by rintro ⟨d', hd', r⟩; exact hp ⟨d', by simp [hd'], r⟩)
      exact ⟨a2.1.trans a1.1, a2.2.1.trans a1.2.1, a2.2.2.1.trans a1.2.2.1, a2.2.2.2.1.trans a1.2.2.2.1,
        a2.2.2.2.2.trans a1.2.2.2.2⟩

omit [Arch] in
/-- The nodes not yet visited are not in the object freed. -/
theorem free_same {live : Ptr → Bool} {off : Nat} {es L as bs : List (Ptr × Nat)} {x : Ptr × Nat} (w : Objects live offs off es)
    (hp : L.Perm es) (nd : (es.map Prod.fst).Nodup) (hL : L = as ++ x :: bs) {h1 h2 : Heap}
    (e : objFree offs junk x.2 h1 = some ((), h2)) : ∀ q ∈ bs.map Prod.fst, h2.valid q = h1.valid q ∧ h2.next q = h1.next q ∧
      h2.prev q = h1.prev q ∧ h2.data q = h1.data q ∧ h2.index q = h1.index q := by
  intro q hq
  refine (objFree_freed e).2 q ?_
  rintro ⟨d, hd, o, ho, eq⟩
  rw [List.mem_singleton] at hd
  subst hd
  obtain ⟨y, hy, rfl⟩ := List.mem_map.1 hq
  have hy' : y ∈ es := hp.mem_iff.1 (by simp [hL, hy])
  have hx' : x ∈ es := hp.mem_iff.1 (by simp [hL])
  have := w.apart y hy' x hx' off w.has o ho (by rw [← w.node y hy']; exact eq)
  have hn : y.1 = x.1 := by rw [w.node y hy', w.node x hx', this]
  have nd' : (L.map Prod.fst).Nodup := (hp.map _).nodup_iff.2 nd
  rw [hL, List.map_append, List.map_cons] at nd'
  have := (List.nodup_append.1 nd').2.1
  exact (List.nodup_cons.1 this).1 (by rw [← hn]; exact hq)

omit [Arch] in
theorem callAll_onNodes (f : Nat → HM Unit) : ∀ (ds : List Nat) (m : Mem) (h' : Heap),
    ListSpec.callAll f ds m.heap = some ((), h') →
    HashSpec.callAll (fun d => onNodes (f d)) ds m = some ((), { m with heap := h' })
  | [], m, h', e => by
    injection e with e
    injection e with _ e
    subst e
    rfl
  | d :: ds, m, h', e => by
    simp only [ListSpec.callAll, run_bind] at e
    cases e1 : f d m.heap with
    | none => rw [e1] at e; cases e
    | some r =>
      obtain ⟨_, h1⟩ := r
      rw [e1, Option.bind_some] at e
      have := callAll_onNodes f ds { m with heap := h1 } h' e
      simp only [HashSpec.callAll, run_bind, onNodes, zoom, e1, Option.bind_some]
      exact this

/-! ### The hashtables -/

omit [Arch] in
theorem vfree_heap {r : Ref} {m m' : Mem} (h : Heap) (e : vfree r m = some ((), m')) :
    vfree r { m with heap := h } = some ((), { m' with heap := h }) := by
  simp only [vfree] at e ⊢
  split at e
  · rename_i hc
    rw [if_pos hc]
    injection e with e
    injection e with _ e
    subst e
    rfl
  · cases e

theorem hashlinSeg_heap (t : Hashlin) (i : Nat) (m : Mem) :
    hashlinSeg t i m = none ∨ ∃ r, hashlinSeg t i = pure r := by
  unfold hashlinSeg
  split
  · cases t.bucket i with
    | none => exact .inl rfl
    | some r => exact .inr ⟨r, rfl⟩
  · exact .inl rfl

theorem shlS_pure (i : Nat) (m : Mem) : (shlS i : MM Nat) m = none ∨ ∃ r, (shlS i : MM Nat) = pure r := by
  unfold shlS
  split
  · exact .inr ⟨_, rfl⟩
  · exact .inl rfl

theorem shlT_pure (i : Nat) (m : Mem) : (shlT i : MM Nat) m = none ∨ ∃ r, (shlT i : MM Nat) = pure r := by
  unfold shlT
  split
  · exact .inr ⟨_, rfl⟩
  · exact .inl rfl

theorem hashlinDoneLoop_heap (t : Hashlin) (h : Heap) : ∀ (k i : Nat) (m m' : Mem),
    hashlinDoneLoop t i k m = some ((), m') → hashlinDoneLoop t i k { m with heap := h } = some ((), { m' with heap := h })
  | 0, i, m, m', e => by
    injection e with e
    injection e with _ e
    subst e
    rfl
  | k + 1, i, m, m', e => by
    simp only [hashlinDoneLoop, run_bind] at e ⊢
    rcases hashlinSeg_heap t i m with e1 | ⟨r, e1⟩
    · rw [e1] at e; cases e
    rcases shlS_pure i m with e2 | ⟨o, e2⟩
    · simp only [e1, run_pure, Option.bind_some, e2] at e; cases e
    simp only [e1, e2, run_pure, Option.bind_some] at e ⊢
    cases e3 : vfree (r.add o) m with
    | none => rw [e3] at e; cases e
    | some x =>
      obtain ⟨_, m1⟩ := x
      rw [e3, Option.bind_some] at e
      rw [vfree_heap h e3, Option.bind_some]
      exact hashlinDoneLoop_heap t h k (i + 1) m1 m' e

theorem hashlinDone_heap (t : Hashlin) (h : Heap) (m m' : Mem) (e : hashlinDone t m = some ((), m')) :
    hashlinDone t { m with heap := h } = some ((), { m' with heap := h }) := by
  simp only [hashlinDone, run_bind] at e ⊢
  rcases hashlinSeg_heap t 0 m with e1 | ⟨r, e1⟩
  · rw [e1] at e; cases e
  simp only [e1, run_pure, Option.bind_some] at e ⊢
  cases e3 : vfree r m with
  | none => rw [e3] at e; cases e
  | some x =>
    obtain ⟨_, m1⟩ := x
    rw [e3, Option.bind_some] at e
    rw [vfree_heap h e3, Option.bind_some]
    exact hashlinDoneLoop_heap t h _ _ m1 m' e

/-- The elements as pairs of node and payload. -/
def pairs (es : List HashSpec.Elem) : List (Ptr × Nat) := es.map fun e => (e.node, e.data)

omit [Arch] in
theorem pairs_fst (es : List HashSpec.Elem) : (pairs es).map Prod.fst = es.map HashSpec.Elem.node := by simp [pairs]

omit [Arch] in
theorem pairs_snd (es : List HashSpec.Elem) : (pairs es).map Prod.snd = es.map HashSpec.Elem.data := by simp [pairs]

theorem hash_freeAll' {T : Type} {I : HashSpec.Impl T} {m0 : Mem} {P : T → Mem → List HashSpec.Elem → Prop}
    (ok : HashSpec.ImplOk I m0 P)
    (dh : ∀ t h m m', I.done t m = some ((), m') → I.done t { m with heap := h } = some ((), { m' with heap := h }))
    {s : HashSpec.St T} {a : HashSpec.Ab} (i : HashSpec.Inv P s a) {off : Nat}
    (w : Objects a.live offs off (pairs a.elems)) :
    ∃ m1 m', I.done s.tbl s.mem = some ((), m1) ∧ m'.vnext = m1.vnext ∧
      (do I.foreach s.tbl (fun obj => onNodes (objFree offs junk obj)); I.done s.tbl : MM Unit) s.mem = some ((), m') ∧
      Freed offs (a.elems.map HashSpec.Elem.data) s.mem.heap m'.heap ∧ m'.vlen = m0.vlen ∧
      ∀ r p, m0.cell? r = some p → m'.cell? r = some p := by
  obtain ⟨L, hp, hf⟩ := ok.foreach i.p
  have nd := ok.nodup i.p
  have hp' : (pairs L).Perm (pairs a.elems) := hp.map _
  have nd' : ((pairs a.elems).map Prod.fst).Nodup := by rw [pairs_fst]; exact nd
  have hpay := w.pay hp' nd'
  rw [pairs_snd, i.live] at hpay
  obtain ⟨h', e1, fr⟩ := callAll_free (junk := junk) (L.map HashSpec.Elem.data) s.mem.heap hpay
  have e2 := callAll_onNodes (objFree offs junk) (L.map HashSpec.Elem.data) s.mem h' e1
  have hg : HashSpec.GoodCallback s.mem (fun obj => onNodes (objFree offs junk obj)) L := by
    intro as x bs hL m1 m2 hs e
    simp only [onNodes, zoom] at e
    cases e3 : objFree offs junk x.data m1.heap with
    | none => rw [e3] at e; cases e
    | some r =>
      obtain ⟨_, h2⟩ := r
      rw [e3] at e
      injection e with e
      injection e with _ e
      subst e
      have hL' : pairs L = pairs as ++ (x.node, x.data) :: pairs bs := by simp [hL, pairs]
      have hsame := free_same w hp' nd' hL' (junk := junk) (x := (x.node, x.data)) e3
      rw [pairs_fst] at hsame
      refine ⟨fun q hq => ?_, fun r p hr => hs.2 r p hr⟩
      obtain ⟨a1, a2, _, a4, _⟩ := hsame q hq
      obtain ⟨b1, b2, b3⟩ := hs.1 q hq
      refine ⟨b1.trans ?_, a2.trans b2, a4.trans b3⟩
      simp only [Heap.ok, a1]
  obtain ⟨m', e4, k1, k2, k3⟩ := ok.done i.p
  refine ⟨m', { m' with heap := h' }, e4, rfl, ?_, ?_, k2, k3⟩
  · simp only [run_bind]
    rw [hf _ hg, e2, Option.bind_some]
    exact dh _ _ _ _ e4
  · have : ∀ p, Inside offs (L.map HashSpec.Elem.data) p ↔ Inside offs (a.elems.map HashSpec.Elem.data) p := by
      intro p
      simp only [Inside, (hp.map HashSpec.Elem.data).mem_iff]
    exact ⟨fun p hq => fr.1 p ((this p).2 hq), fun p hq => fr.2 p fun hn => hq ((this p).1 hn)⟩

theorem hash_freeAll {T : Type} {I : HashSpec.Impl T} {m0 : Mem} {P : T → Mem → List HashSpec.Elem → Prop}
    (ok : HashSpec.ImplOk I m0 P)
    (dh : ∀ t h m m', I.done t m = some ((), m') → I.done t { m with heap := h } = some ((), { m' with heap := h }))
    {s : HashSpec.St T} {a : HashSpec.Ab} (i : HashSpec.Inv P s a) {off : Nat}
    (w : Objects a.live offs off (pairs a.elems)) :
    ∃ m', (do I.foreach s.tbl (fun obj => onNodes (objFree offs junk obj)); I.done s.tbl : MM Unit) s.mem = some ((), m') ∧
      Freed offs (a.elems.map HashSpec.Elem.data) s.mem.heap m'.heap ∧ m'.vlen = m0.vlen ∧
      ∀ r p, m0.cell? r = some p → m'.cell? r = some p :=
  let ⟨_, m', _, _, h⟩ := hash_freeAll' (junk := junk) ok dh i w
  ⟨m', h⟩

end FreeSpec
end Tommy
