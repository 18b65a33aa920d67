import Verif.Proof.Buckets
import Verif.Proof.Arch
import Verif.Spec.HashImpl
import Mathlib.Data.List.Perm.Subperm
/-! From the correctness of the functions of a hashtable to the correctness of all the histories. -/
set_option linter.unusedSimpArgs false
namespace Tommy

variable [Arch]
namespace HashSpec

/-! ### foreach -/

omit [Arch] in
theorem callAll_append (func : Nat → MM Unit) (a b : List Nat) (m : Mem) :
    callAll func (a ++ b) m = (callAll func a m).bind fun r => callAll func b r.2 := by
  induction a generalizing m with
  | nil => simp [callAll]
  | cons x a ih =>
    simp only [List.cons_append, callAll, run_bind]
    cases func x m with
    | none => rfl
    | some r => simp only [Option.bind_some, ih]

omit [Arch] in
theorem bucketForeach_spec {m0 : Mem} (func : Nat → MM Unit) (R K : List Elem) : ∀ m,
    (∀ e ∈ K, m0.heap.ok e.node) → Fwd m0.heap (K.map Elem.node) 0 →
    (∀ e ∈ K, m0.heap.data e.node = e.data) → SameNodes m0 m ((K ++ R).map Elem.node) →
    GoodCallback m0 func (K ++ R) →
    bucketForeachLoop func ((K.map Elem.node).headD 0) m = callAll func (K.map Elem.data) m ∧
      ∀ m', callAll func (K.map Elem.data) m = some ((), m') → SameNodes m0 m' (R.map Elem.node) := by
  induction K with
  | nil =>
    intro m _ _ _ sm _
    refine ⟨by rw [bucketForeachLoop]; simp [callAll], fun m' e => ?_⟩
    simp [callAll] at e; subst e; simpa using sm
  | cons e K ih =>
    intro m ok fw da sm gc
    obtain ⟨hok, hn, hd⟩ := sm.1 e.node (by simp)
    have oe := hok.1 (ok e (by simp))
    have h0 : e.node ≠ 0 := oe.1
    have unf : bucketForeachLoop func (((e :: K).map Elem.node).headD 0) m =
        (func e.data m).bind fun r => bucketForeachLoop func ((K.map Elem.node).headD 0) r.2 := by
      rw [List.map_cons, List.headD_cons, bucketForeachLoop]
      have hf : m0.heap.next e.node = (K.map Elem.node).headD 0 := fw.1
      simp only [h0, if_false, run_ite, run_bind, onNodes_run (getData_run oe), Option.bind_some,
        onNodes_run (getNext_run oe), hd, da e (by simp), hn, hf]
    rw [unf]
    simp only [List.map_cons, callAll, run_bind]
    cases hfx : func e.data m with
    | none => exact ⟨rfl, fun m' h => by simp at h⟩
    | some r =>
      obtain ⟨⟨⟩, m2⟩ := r
      simp only [Option.bind_some]
      have sm2 := gc [] e (K ++ R) rfl m m2 ⟨fun y hy => sm.1 y (by rw [List.cons_append, List.map_cons]; exact List.mem_cons_of_mem _ hy), sm.2⟩ hfx
      exact ih m2 (fun y hy => ok y (by simp [hy])) fw.2 (fun y hy => da y (by simp [hy])) sm2
        (fun as y bs e' => gc (e :: as) y bs (by simp [e']))

omit [Arch] in
theorem posForeach_spec {m0 : Mem} {ref : Nat → MM Ref} {refs : Nat → Ref} {n : Nat} {B : Nat → List Elem}
    (hr : ∀ b, b < n → ∀ m, ref b m = some (refs b, m))
    (hc : ∀ b, b < n → ∃ p, m0.cell? (refs b) = some p ∧ ERep m0.heap p (B b))
    (func : Nat → MM Unit) : ∀ k pos m, pos + k = n →
    SameNodes m0 m (((List.range' pos k).flatMap B).map Elem.node) →
    GoodCallback m0 func ((List.range' pos k).flatMap B) →
    posForeachLoop func ref pos k m = callAll func (((List.range' pos k).flatMap B).map Elem.data) m := by
  intro k
  induction k with
  | zero => intro pos m _ _ _; simp [posForeachLoop, callAll]
  | succ k ih =>
    intro pos m hpk sm gc
    obtain ⟨p, hp, R⟩ := hc pos (by omega)
    rw [List.range'_succ, List.flatMap_cons] at sm gc ⊢
    obtain ⟨e1, e2⟩ := bucketForeach_spec func ((List.range' (pos + 1) k).flatMap B) (B pos) m
      (fun e he => R.ok he) R.list.seg.fwd R.data sm gc
    rw [← R.list.head] at e1
    simp only [posForeachLoop, run_bind, hr pos (by omega), Option.bind_some, readRef_run (sm.2 _ _ hp), e1]
    rw [List.map_append, callAll_append]
    cases hca : callAll func ((B pos).map Elem.data) m with
    | none => rfl
    | some r =>
      obtain ⟨⟨⟩, m'⟩ := r
      simp only [Option.bind_some]
      exact ih (pos + 1) m' (by omega) (e2 m' hca)
        (fun as y bs e' => gc (B pos ++ as) y bs (by rw [e']; simp))

variable {m : Mem} {ref : Nat → Ref} {place : Nat → Nat} {B : Nat → List Elem} {es : List Elem}

omit [Arch] in
/-- The buckets one after the other are a permutation of the elements. -/
theorem BInv.perm {n : Nat} (i : BInv m ref (· < n) place B es) : ((List.range' 0 n).flatMap B).Perm es := by
  rw [List.perm_ext_iff_of_nodup]
  · intro e
    simp only [List.mem_flatMap, List.mem_range'_1, Nat.zero_le, true_and, Nat.zero_add]
    constructor
    · rintro ⟨b, hb, he⟩; exact i.mem_es hb he
    · intro he
      exact ⟨_, i.place_act e.hash, (i.mem_iff (i.place_act _)).2 ⟨he, rfl⟩⟩
  · rw [List.nodup_flatMap]
    refine ⟨fun b hb => ?_, ?_⟩
    · simp only [List.mem_range'_1, Nat.zero_le, true_and, Nat.zero_add] at hb
      obtain ⟨p, _, R⟩ := i.cells b hb
      exact R.nodup
    · refine List.Pairwise.imp_of_mem ?_ (List.nodup_range' (s := 0) (n := n))
      intro b c hb hc hbc
      simp only [List.mem_range'_1, Nat.zero_le, true_and, Nat.zero_add] at hb hc
      intro e he he'
      exact i.disj hb hc hbc _ (List.mem_map_of_mem he) (List.mem_map_of_mem he')
  · exact List.Nodup.of_map _ i.nodup

omit [Arch] in
theorem BInv.foreach {n : Nat} (i : BInv m ref (· < n) place B es) {rf : Nat → MM Ref}
    (hr : ∀ b, b < n → ∀ m, rf b m = some (ref b, m)) :
    ∃ L : List Elem, L.Perm es ∧ ∀ func, GoodCallback m func L →
      posForeachLoop func rf 0 n m = callAll func (L.map Elem.data) m :=
  ⟨_, i.perm, fun func gc => posForeach_spec hr i.cells func n 0 m (by simp)
    ⟨fun _ _ => ⟨Iff.rfl, rfl, rfl⟩, fun _ _ h => h⟩ gc⟩

/-! ### Histories -/

/-- What the functions of a hashtable must satisfy, for an invariant `P`. -/
structure ImplOk {T : Type} (I : Impl T) (m0 : Mem) (P : T → Mem → List Elem → Prop) : Prop where
  nodup : ∀ {t m es}, P t m es → (es.map Elem.node).Nodup
  ok : ∀ {t m es}, P t m es → ∀ e ∈ es, m.heap.ok e.node
  congr : ∀ {t m es h'}, P t m es → (∀ e ∈ es, SameNode m.heap h' e.node) → P t { m with heap := h' } es
  insert : ∀ {t m es n} (d h : Nat), P t m es → m.heap.ok n → n ∉ es.map Elem.node →
    es.length + 1 < 2 ^ (bktBit - 1) → ∃ t' m', I.insert t n d h m = some (t', m') ∧ P t' m' (es ++ [⟨n, d, h⟩]) ∧
      m'.heap.valid = m.heap.valid ∧
      ∀ q, q ≠ n → q ∉ es.map Elem.node → SameNode m.heap m'.heap q
  removeExisting : ∀ {t m es e}, P t m es → e ∈ es → es.length < 2 ^ (bktBit - 1) →
    ∃ t' m', I.removeExisting t e.node m = some ((t', e.data), m') ∧
      P t' m' (es.filter (fun x => x.node ≠ e.node)) ∧ m'.heap.valid = m.heap.valid ∧
      ∀ q, q ∉ es.map Elem.node → SameNode m.heap m'.heap q
  remove_some : ∀ {t m es e cmp h}, P t m es → es.find? (hit cmp h) = some e → es.length < 2 ^ (bktBit - 1) →
    ∃ t' m', I.remove t cmp h m = some ((t', e.data), m') ∧
      P t' m' (es.filter (fun x => x.node ≠ e.node)) ∧ m'.heap.valid = m.heap.valid ∧
      ∀ q, q ∉ es.map Elem.node → SameNode m.heap m'.heap q
  remove_none : ∀ {t m es cmp h}, P t m es → es.find? (hit cmp h) = none →
    I.remove t cmp h m = some ((t, 0), m)
  search : ∀ {t m es} (cmp h), P t m es →
    I.search t cmp h m = some (((es.find? (hit cmp h)).map Elem.data).getD 0, m)
  bucket : ∀ {t m es} (h), P t m es → ∃ l, walkBucket I t h m = some (l, m) ∧ l.Nodup ∧
    (∀ e ∈ l, e ∈ es) ∧ l.filter (fun e => e.hash = h) = es.filter (fun e => e.hash = h)
  count : ∀ {t m es}, P t m es → es.length < 2 ^ (bktBit - 1) → I.count t = es.length
  foreach : ∀ {t m es}, P t m es → ∃ L : List Elem, L.Perm es ∧ ∀ func, GoodCallback m func L →
    I.foreach t func m = callAll func (L.map Elem.data) m
  keep : ∀ {t m es}, P t m es → ∀ r p, m0.cell? r = some p → m.cell? r = some p
  done : ∀ {t m es}, P t m es → ∃ m', I.done t m = some ((), m') ∧ m'.heap = m.heap ∧
    m'.vlen = m0.vlen ∧ ∀ r p, m0.cell? r = some p → m'.cell? r = some p

structure Inv {T : Type} (P : T → Mem → List Elem → Prop) (s : St T) (a : Ab) : Prop where
  p : P s.tbl s.mem a.elems
  live : a.live = s.mem.heap.valid
  liveOk : LiveOk a.live

omit [Arch] in
theorem nodup_length_le {xs : List Nat} {n : Nat} (nd : xs.Nodup) (hx : ∀ x ∈ xs, x < n) : xs.length ≤ n := by
  have := (List.subperm_of_subset nd (l₂ := List.range n) (fun x h => List.mem_range.2 (hx x h))).length_le
  simpa using this

theorem maxBuckets_eq : maxBuckets = 2 ^ bktBit := by unfold maxBuckets; arch

/-- Distinct node objects in an address space. -/
theorem length_le_of_live {live : Ptr → Bool} (hl : LiveOk live) {xs : List Nat} (nd : xs.Nodup)
    (hx : ∀ x ∈ xs, live x = true) : xs.length < 2 ^ (bktBit - 1) := by
  have pos : ∀ x ∈ xs, 1 ≤ (x : Nat) := by
    intro x h
    rcases Nat.eq_zero_or_pos x with rfl | h0
    · have := hx 0 h; rw [hl.zero] at this; exact absurd this (by simp)
    · exact h0
  have nd' : (xs.map (fun x => (x - 1) / nodeSize)).Nodup := by
    refine List.Nodup.map_on ?_ nd
    intro x hxm y hym hxy
    by_contra hne
    have : x + nodeSize ≤ y ∨ y + nodeSize ≤ x := hl.apart x y (hx x hxm) (hx y hym) hne
    have := pos x hxm
    have := pos y hym
    arch
  have := nodup_length_le nd' (n := 2 ^ (bktBit - 1) - 1) (by
    intro x hxm
    obtain ⟨y, hy, rfl⟩ := List.mem_map.1 hxm
    have : y + nodeSize ≤ 2 ^ sizeBit := hl.bound y (hx y hy)
    arch)
  rw [List.length_map] at this
  arch

theorem Inv.length_le {T : Type} {I : Impl T} {m0 : Mem} {P : T → Mem → List Elem → Prop} (ho : ImplOk I m0 P)
    {s : St T} {a : Ab} (i : Inv P s a) : a.elems.length < 2 ^ (bktBit - 1) := by
  have := length_le_of_live i.liveOk (ho.nodup i.p) (fun x hx => by
    obtain ⟨e, he, rfl⟩ := List.mem_map.1 hx
    rw [i.live]; exact (ho.ok i.p e he).2)
  simpa using this

theorem Inv.ok {T : Type} {P : T → Mem → List Elem → Prop} {s : St T} {a : Ab} (i : Inv P s a) {p : Ptr}
    (hp : a.live p = true) : s.mem.heap.ok p := by
  refine ⟨?_, by rw [← i.live]; exact hp⟩
  rintro rfl
  rw [i.liveOk.zero] at hp; exact absurd hp (by simp)

omit [Arch] in
theorem eraseP_eq_filter {es : List Elem} (nd : (es.map Elem.node).Nodup) {p : Elem → Bool} {e : Elem}
    (h : es.find? p = some e) : es.eraseP p = es.filter (fun x => x.node ≠ e.node) := by
  rw [List.find?_eq_some_iff_append] at h
  obtain ⟨hp, as, bs, rfl, has⟩ := h
  rw [filter_node_append nd, List.eraseP_append_right _ (by intro x hx; simpa using has x hx),
    List.eraseP_cons_of_pos hp]

theorem step_inv {T : Type} {I : Impl T} {m0 : Mem} {P : T → Mem → List Elem → Prop} (ho : ImplOk I m0 P)
    {s : St T} {a : Ab} {op : Op} (i : Inv P s a) (hleg : legal a op) :
    ∃ out s', step I op s = some (out, s') ∧ allowed a op out ∧ Inv P s' (next a op out) := by
  have hlen := i.length_le ho
  cases op with
  | insert p d h =>
    obtain ⟨hp, hns⟩ := hleg
    have hok := i.ok hp
    have hlen' : a.elems.length + 1 < 2 ^ (bktBit - 1) := by
      have := length_le_of_live i.liveOk (xs := p :: a.elems.map Elem.node)
        (List.nodup_cons.2 ⟨hns, ho.nodup i.p⟩) (fun x hx => by
          rcases List.mem_cons.1 hx with rfl | hx
          · exact hp
          · obtain ⟨e, he, rfl⟩ := List.mem_map.1 hx
            rw [i.live]; exact (ho.ok i.p e he).2)
      simpa using this
    obtain ⟨t', m', e, p', v, _⟩ := ho.insert d h i.p hok hns hlen'
    exact ⟨.unit, ⟨m', t'⟩, by simp [step, e], rfl, ⟨p', i.live.trans v.symm, i.liveOk⟩⟩
  | remove cmp h =>
    cases hf : a.elems.find? (hit cmp h) with
    | none =>
      refine ⟨.val 0, s, by simp [step, ho.remove_none i.p hf], by simp [allowed, hf], ?_, i.live, i.liveOk⟩
      simp only [next]
      rw [List.eraseP_of_forall_not (by simpa using hf)]
      exact i.p
    | some e =>
      obtain ⟨t', m', e1, p', v, _⟩ := ho.remove_some i.p hf hlen
      refine ⟨.val e.data, ⟨m', t'⟩, by simp [step, e1], by simp [allowed, hf], ?_, i.live.trans v.symm,
        i.liveOk⟩
      simp only [next]
      rw [eraseP_eq_filter (ho.nodup i.p) hf]
      exact p'
  | removeExisting p =>
    obtain ⟨e, he, rfl⟩ := List.mem_map.1 hleg
    obtain ⟨t', m', e1, p', v, _⟩ := ho.removeExisting i.p he hlen
    exact ⟨.val e.data, ⟨m', t'⟩, by simp [step, e1], ⟨e, he, rfl, rfl⟩, p', i.live.trans v.symm, i.liveOk⟩
  | search cmp h =>
    exact ⟨.val (((a.elems.find? (hit cmp h)).map Elem.data).getD 0), s,
      by simp [step, ho.search cmp h i.p], rfl, i⟩
  | bucket h =>
    obtain ⟨l, e, nd, sub, fil⟩ := ho.bucket h i.p
    exact ⟨.elems l, s, by simp [step, e], ⟨l, rfl, nd, sub, fil⟩, i⟩
  | count =>
    exact ⟨.val a.elems.length, s, by simp [step, ho.count i.p hlen], rfl, i⟩
  | alloc p =>
    obtain ⟨h0, hb, hap⟩ := hleg
    refine ⟨.unit, _, rfl, rfl, ?_, ?_, ?_⟩
    · refine ho.congr i.p fun e he => ⟨fun hok => ⟨hok.1, ?_⟩, rfl, rfl, rfl, rfl⟩
      simp only [upd_apply]
      split
      · rfl
      · exact hok.2
    · simp only [next, i.live]
    · refine ⟨?_, ?_, ?_⟩
      · simp only [next]; rw [upd_ne (Ne.symm h0)]; exact i.liveOk.zero
      · intro q hq
        simp only [next, upd_apply] at hq
        split at hq
        · rename_i h; rw [h]; exact hb
        · exact i.liveOk.bound q hq
      · intro q r hq hr hqr
        simp only [next, upd_apply] at hq hr
        split at hq
        · rename_i h
          rw [if_neg (by rw [h] at hqr; exact hqr.symm)] at hr
          rw [h]; exact hap r hr
        · split at hr
          · rename_i h
            rw [h]; exact (hap q hq).symm
          · exact i.liveOk.apart q r hq hr hqr
  | free p =>
    obtain ⟨hp, hns⟩ := hleg
    refine ⟨.unit, _, rfl, rfl, ?_, ?_, ?_⟩
    · refine ho.congr i.p fun e he => ⟨fun hok => ⟨hok.1, ?_⟩, rfl, rfl, rfl, rfl⟩
      have : e.node ≠ p := fun h => hns (h ▸ List.mem_map_of_mem he)
      simp only [upd_ne this]; exact hok.2
    · simp only [next, i.live]
    · have sub : ∀ q, (upd a.live p false) q = true → a.live q = true := by
        intro q hq
        simp only [upd_apply] at hq
        split at hq
        · simp at hq
        · exact hq
      refine ⟨?_, fun q hq => i.liveOk.bound q (sub q hq),
        fun q r hq hr => i.liveOk.apart q r (sub q hq) (sub r hr)⟩
      simp only [next, upd_apply]
      split
      · rfl
      · exact i.liveOk.zero
  | scribble p n q d x =>
    obtain ⟨hp, hns⟩ := hleg
    refine ⟨.unit, _, rfl, rfl, ?_, i.live, i.liveOk⟩
    refine ho.congr i.p fun e he => ?_
    have : e.node ≠ p := fun h => hns (h ▸ List.mem_map_of_mem he)
    exact ⟨id, upd_ne this, upd_ne this, upd_ne this, upd_ne this⟩

theorem correct {T : Type} {I : Impl T} {start : MM T} {m0 : Mem} {P : T → Mem → List Elem → Prop}
    (ho : ImplOk I m0 P)
    (hi : StartOk m0 → ∃ t m, start m0 = some (t, m) ∧ P t m [] ∧ m.heap = m0.heap) :
    (sys I start m0).Correct ∧ ∀ s a, (sys I start m0).Reach s a → Inv P s a := by
  have hinit : ∀ s a, (sys I start m0).init s a → Inv P s a := by
    rintro s a ⟨h0, e, he, hl⟩
    obtain ⟨t, m, e1, p, hh⟩ := hi h0
    rw [e] at e1
    simp only [Option.some.injEq, Prod.mk.injEq] at e1
    obtain ⟨rfl, rfl⟩ := e1
    exact ⟨by rw [he]; exact p, by rw [hl, hh], by rw [hl]; exact h0.1⟩
  exact ⟨Sys.correct_of_inv (Inv := Inv P) hinit (fun s a op => step_inv ho),
    Sys.reach_inv (Inv := Inv P) hinit (fun s a op => step_inv ho)⟩

end HashSpec
end Tommy
