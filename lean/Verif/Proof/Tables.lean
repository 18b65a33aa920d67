import Verif.Spec.Tables
import Verif.Proof.Free
import Verif.Proof.HashProps
/-! Hashtables created and destroyed in the same memory. -/
set_option autoImplicit false
set_option linter.unusedSimpArgs false
namespace Tommy

variable [Arch]
namespace HashSpec

/-- The vectors of a table with the invariant on `m0` and `m` are the same in `m'`, where the others are the ones of `m0'`. -/
structure Moves (m0 m m0' m' : Mem) : Prop where
  own : ∀ v, m0.vlen v = none → m.vlen v ≠ none → m'.vlen v = m.vlen v ∧ m0'.vlen v = none
  rest : ∀ v, (m0.vlen v ≠ none ∨ m.vlen v = none) → m'.vlen v = m0'.vlen v
  fresh : m'.FreshOk
  cells : ∀ q p, m0.vlen q.vec = none → m.cell? q = some p → m'.cell? q = some p
  keep : ∀ q p, m0'.cell? q = some p → m'.cell? q = some p

variable {m0 m m0' m' : Mem} {es : List Elem}

omit [Arch] in
theorem Moves.used (M : Moves m0 m m0' m') {v n : Nat} (h1 : m0.vlen v = none) (h2 : m.vlen v = some n) : v < m'.vnext := by
  by_contra h
  have := M.fresh v (Nat.le_of_not_lt h)
  rw [(M.own v h1 (by simp [h2])).1, h2] at this
  cases this

omit [Arch] in
theorem Flat.move {r : Ref} {n : Nat} (f : Flat m0 m r n es) (M : Moves m0 m m0' m')
    (hs : ∀ e ∈ es, SameNode m.heap m'.heap e.node) : Flat m0' m' r n es where
  off := f.off
  vlen := by
    have hv : m.vlen r.vec = some n := by rw [f.vlen]; simp
    funext v
    rw [upd_apply]
    split
    · rename_i h; rw [h, (M.own _ f.new (by simp [hv])).1, hv]
    · rename_i h
      refine M.rest v ?_
      have : m.vlen v = m0.vlen v := by rw [f.vlen, upd_ne h]
      rw [this]
      exact (Classical.em _).symm.imp id id
  new := (M.own _ f.new (by rw [f.vlen]; simp)).2
  used := M.used (n := n) f.new (by rw [f.vlen]; simp)
  fresh := M.fresh
  keep := M.keep
  binv := by
    obtain ⟨B, b⟩ := f.binv
    refine ⟨B, b.congr (fun c hc => ?_) hs⟩
    obtain ⟨p, hp, _⟩ := b.cells c hc
    rw [hp]
    exact M.cells _ _ f.new hp

omit [Arch] in
theorem Segs.move {bk : Nat → Option Ref} {k : Nat} {vs : Nat → Nat} (s : Segs m0 m bk k vs) (M : Moves m0 m m0' m') :
    Segs m0' m' bk k vs where
  low := s.low
  high := s.high
  len i h1 h2 := by rw [(M.own _ (s.new i h1 h2) (by rw [s.len i h1 h2]; simp)).1, s.len i h1 h2]
  inj := s.inj
  new i h1 h2 := (M.own _ (s.new i h1 h2) (by rw [s.len i h1 h2]; simp)).2
  used i h1 h2 := M.used (s.new i h1 h2) (s.len i h1 h2)
  other v hv := by
    refine M.rest v ?_
    rw [s.other v hv]
    exact (Classical.em _).symm.imp id id
  fresh := M.fresh
  keep := M.keep

theorem LinInv.move {t : Hashlin} (i : LinInv m0 t m es) (M : Moves m0 m m0' m')
    (hs : ∀ e ∈ es, SameNode m.heap m'.heap e.node) : LinInv m0' t m' es := by
  obtain ⟨vs, s⟩ := i.segs
  obtain ⟨B, b⟩ := i.binv
  refine ⟨⟨i.bit, i.bit_le, i.max, i.mask, i.low, i.lowMask, i.big, i.split, i.split0, i.count, ⟨vs, s.move M⟩,
    ⟨B, b.congr (fun c hc => ?_) hs⟩⟩, i.num⟩
  obtain ⟨p, hp, _⟩ := b.cells c hc
  rw [hp]
  refine M.cells _ _ ?_ hp
  obtain ⟨j, h1, h2, h3⟩ := s.lref_vec i.bit (Nat.lt_of_lt_of_le ((lact_below i.split).1 hc) i.size_le)
  rw [h3]
  exact s.new j h1 h2

end HashSpec

namespace TablesSpec
open HashSpec hiding Inv step legal allowed next sys Op Out St Ab
open FreeSpec

/-- The invariant of the kind of the table. -/
def Good (m0 : Mem) : Tbl → Mem → List Elem → Prop
  | .hashtable t => TblInv m0 t
  | .hashdyn t => DynInv m0 t
  | .hashlin t => LinInv m0 t

variable {m0 m m0' m' : Mem} {es : List Elem} {t : Tbl}

theorem Good.move (g : Good m0 t m es) (M : Moves m0 m m0' m') (hs : ∀ e ∈ es, SameNode m.heap m'.heap e.node) :
    Good m0' t m' es := by
  cases t with
  | hashtable t => exact ⟨g.pow, g.mask, g.count, g.flat.move M hs⟩
  | hashdyn t => exact ⟨⟨g.max, g.mask, g.bit, g.bit_lt, g.count, g.flat.move M hs⟩, g.load, g.low⟩
  | hashlin t => exact LinInv.move g M hs

omit [Arch] in
theorem flat_vkeep {r : Ref} {n : Nat} (f : Flat m0 m r n es) (v : Nat) (h : m0.vlen v ≠ none) : m.vlen v = m0.vlen v := by
  have : v ≠ r.vec := by rintro rfl; exact h f.new
  rw [f.vlen, upd_ne this]

theorem Good.vkeep (g : Good m0 t m es) (v : Nat) (h : m0.vlen v ≠ none) : m.vlen v = m0.vlen v := by
  cases t with
  | hashtable t => exact flat_vkeep g.flat v h
  | hashdyn t => exact flat_vkeep g.flat v h
  | hashlin t =>
    obtain ⟨vs, s⟩ := LinBase.segs (LinInv.toLinBase g)
    exact s.other v fun i h1 h2 e => h (e ▸ s.new i h1 h2)

theorem Good.fresh (g : Good m0 t m es) : m.FreshOk := by
  cases t with
  | hashtable t => exact g.flat.fresh
  | hashdyn t => exact g.flat.fresh
  | hashlin t =>
    obtain ⟨vs, s⟩ := LinBase.segs (LinInv.toLinBase g)
    exact s.fresh

/-- A table has a vector. -/
theorem Good.some_vec (g : Good m0 t m es) : ∃ v, m0.vlen v = none ∧ m.vlen v ≠ none := by
  cases t with
  | hashtable t =>
    have g : TblInv m0 t m es := g
    exact ⟨_, g.flat.new, by rw [g.flat.vlen]; simp⟩
  | hashdyn t =>
    have g : DynInv m0 t m es := g
    exact ⟨_, g.flat.new, by rw [g.flat.vlen]; simp⟩
  | hashlin t =>
    have g : LinInv m0 t m es := g
    obtain ⟨vs, s⟩ := g.segs
    have := g.bit
    exact ⟨_, s.new 5 (Nat.le_refl _) (by omega), by rw [s.len 5 (Nat.le_refl _) (by omega)]; simp⟩

theorem tbl_ok (m0 : Mem) : ImplOk tblImpl m0 (Good m0) where
  nodup {t m es} g := by
    cases t with
    | hashtable t => exact (hashtable_ok m0).nodup g
    | hashdyn t => exact (hashdyn_ok m0).nodup g
    | hashlin t => exact (hashlin_ok m0).nodup g
  ok {t m es} g := by
    cases t with
    | hashtable t => exact (hashtable_ok m0).ok g
    | hashdyn t => exact (hashdyn_ok m0).ok g
    | hashlin t => exact (hashlin_ok m0).ok g
  congr {t m es h'} g := by
    cases t with
    | hashtable t => exact (hashtable_ok m0).congr g
    | hashdyn t => exact (hashdyn_ok m0).congr g
    | hashlin t => exact (hashlin_ok m0).congr g
  insert {t m es n} d h g h1 h2 h3 := by
    cases t with
    | hashtable t =>
      obtain ⟨t', m', e, r⟩ := (hashtable_ok m0).insert d h g h1 h2 h3
      exact ⟨.hashtable t', m', by simp only [tblImpl, run_map]; rw [show hashtableInsert t n d h m = _ from e]; rfl, r⟩
    | hashdyn t =>
      obtain ⟨t', m', e, r⟩ := (hashdyn_ok m0).insert d h g h1 h2 h3
      exact ⟨.hashdyn t', m', by simp only [tblImpl, run_map]; rw [show hashdynInsert t n d h m = _ from e]; rfl, r⟩
    | hashlin t =>
      obtain ⟨t', m', e, r⟩ := (hashlin_ok m0).insert d h g h1 h2 h3
      exact ⟨.hashlin t', m', by simp only [tblImpl, run_map]; rw [show hashlinInsert t n d h m = _ from e]; rfl, r⟩
  removeExisting {t m es x} g h1 h2 := by
    cases t with
    | hashtable t =>
      obtain ⟨t', m', e, r⟩ := (hashtable_ok m0).removeExisting g h1 h2
      exact ⟨.hashtable t', m', by simp only [tblImpl, run_map]; rw [show hashtableRemoveExisting t x.node m = _ from e]; rfl, r⟩
    | hashdyn t =>
      obtain ⟨t', m', e, r⟩ := (hashdyn_ok m0).removeExisting g h1 h2
      exact ⟨.hashdyn t', m', by simp only [tblImpl, run_map]; rw [show hashdynRemoveExisting t x.node m = _ from e]; rfl, r⟩
    | hashlin t =>
      obtain ⟨t', m', e, r⟩ := (hashlin_ok m0).removeExisting g h1 h2
      exact ⟨.hashlin t', m', by simp only [tblImpl, run_map]; rw [show hashlinRemoveExisting t x.node m = _ from e]; rfl, r⟩
  remove_some {t m es x cmp h} g h1 h2 := by
    cases t with
    | hashtable t =>
      obtain ⟨t', m', e, r⟩ := (hashtable_ok m0).remove_some g h1 h2
      exact ⟨.hashtable t', m', by simp only [tblImpl, run_map]; rw [show hashtableRemove t cmp h m = _ from e]; rfl, r⟩
    | hashdyn t =>
      obtain ⟨t', m', e, r⟩ := (hashdyn_ok m0).remove_some g h1 h2
      exact ⟨.hashdyn t', m', by simp only [tblImpl, run_map]; rw [show hashdynRemove t cmp h m = _ from e]; rfl, r⟩
    | hashlin t =>
      obtain ⟨t', m', e, r⟩ := (hashlin_ok m0).remove_some g h1 h2
      exact ⟨.hashlin t', m', by simp only [tblImpl, run_map]; rw [show hashlinRemove t cmp h m = _ from e]; rfl, r⟩
  remove_none {t m es cmp h} g h1 := by
    cases t with
    | hashtable t =>
      simp only [tblImpl, run_map]; rw [show hashtableRemove t cmp h m = _ from (hashtable_ok m0).remove_none g h1]; rfl
    | hashdyn t =>
      simp only [tblImpl, run_map]; rw [show hashdynRemove t cmp h m = _ from (hashdyn_ok m0).remove_none g h1]; rfl
    | hashlin t =>
      simp only [tblImpl, run_map]; rw [show hashlinRemove t cmp h m = _ from (hashlin_ok m0).remove_none g h1]; rfl
  search {t m es} cmp h g := by
    cases t with
    | hashtable t => exact (hashtable_ok m0).search cmp h g
    | hashdyn t => exact (hashdyn_ok m0).search cmp h g
    | hashlin t => exact (hashlin_ok m0).search cmp h g
  bucket {t m es} h g := by
    cases t with
    | hashtable t => exact (hashtable_ok m0).bucket h g
    | hashdyn t => exact (hashdyn_ok m0).bucket h g
    | hashlin t => exact (hashlin_ok m0).bucket h g
  count {t m es} g h := by
    cases t with
    | hashtable t => exact (hashtable_ok m0).count g h
    | hashdyn t => exact (hashdyn_ok m0).count g h
    | hashlin t => exact (hashlin_ok m0).count g h
  foreach {t m es} g := by
    cases t with
    | hashtable t => exact (hashtable_ok m0).foreach g
    | hashdyn t => exact (hashdyn_ok m0).foreach g
    | hashlin t => exact (hashlin_ok m0).foreach g
  keep {t m es} g := by
    cases t with
    | hashtable t => exact (hashtable_ok m0).keep g
    | hashdyn t => exact (hashdyn_ok m0).keep g
    | hashlin t => exact (hashlin_ok m0).keep g
  done {t m es} g := by
    cases t with
    | hashtable t => exact (hashtable_ok m0).done g
    | hashdyn t => exact (hashdyn_ok m0).done g
    | hashlin t => exact (hashlin_ok m0).done g

theorem start_ok {k : Kind} (hk : ∀ n, k = .hashtable n → n ≤ maxBuckets) (h0 : StartOk m0) :
    ∃ t m, start k m0 = some (t, m) ∧ Good m0 t m [] ∧ m.heap = m0.heap := by
  cases k with
  | hashtable n =>
    obtain ⟨t, m, e, i, h, _⟩ := hashtableInit_spec (hk n rfl) h0
    exact ⟨.hashtable t, m, by simp only [start, run_map, e]; rfl, i, h⟩
  | hashdyn =>
    obtain ⟨t, m, e, i, h⟩ := hashdynInit_spec h0
    exact ⟨.hashdyn t, m, by simp only [start, run_map, e]; rfl, i, h⟩
  | hashlin =>
    obtain ⟨t, m, e, i, h, _⟩ := hashlinInit_spec h0
    exact ⟨.hashlin t, m, by simp only [start, run_map, e]; rfl, i, h⟩

/-! ### done -/

omit [Arch] in
theorem vfree_vnext {r : Ref} (e : vfree r m = some ((), m')) : m'.vnext = m.vnext := by
  simp only [vfree] at e
  split at e
  · injection e with e
    injection e with _ e
    subst e
    rfl
  · cases e

theorem hashlinDoneLoop_vnext (t : Hashlin) : ∀ (k i : Nat) (m m' : Mem),
    hashlinDoneLoop t i k m = some ((), m') → m'.vnext = m.vnext
  | 0, i, m, m', e => by
    injection e with e
    injection e with _ e
    subst e
    rfl
  | k + 1, i, m, m', e => by
    simp only [hashlinDoneLoop, run_bind] at e
    rcases hashlinSeg_heap t i m with e1 | ⟨r, e1⟩
    · rw [e1] at e; cases e
    rcases shlS_pure i m with e2 | ⟨o, e2⟩
    · simp only [e1, run_pure, Option.bind_some, e2] at e; cases e
    simp only [e1, e2, run_pure, Option.bind_some] at e
    cases e3 : vfree (r.add o) m with
    | none => rw [e3] at e; cases e
    | some x =>
      obtain ⟨_, m1⟩ := x
      rw [e3, Option.bind_some] at e
      rw [hashlinDoneLoop_vnext t k (i + 1) m1 m' e, vfree_vnext e3]

theorem done_vnext (e : tblImpl.done t m = some ((), m')) : m'.vnext = m.vnext := by
  cases t with
  | hashtable t => exact vfree_vnext e
  | hashdyn t => exact vfree_vnext e
  | hashlin t =>
    simp only [tblImpl, hashlinDone, run_bind] at e
    rcases hashlinSeg_heap t 0 m with e1 | ⟨r, e1⟩
    · rw [e1] at e; cases e
    simp only [e1, run_pure, Option.bind_some] at e
    cases e3 : vfree r m with
    | none => rw [e3] at e; cases e
    | some x =>
      obtain ⟨_, m1⟩ := x
      rw [e3, Option.bind_some] at e
      rw [hashlinDoneLoop_vnext t _ _ m1 m' e, vfree_vnext e3]

theorem done_heap (t : Tbl) (h : Heap) (m m' : Mem) (e : tblImpl.done t m = some ((), m')) :
    tblImpl.done t { m with heap := h } = some ((), { m' with heap := h }) := by
  cases t with
  | hashtable t => exact vfree_heap h e
  | hashdyn t => exact vfree_heap h e
  | hashlin t => exact hashlinDone_heap t h m m' e

theorem freeAll_eq (offs : List Nat) (junk : Heap) (t : Tbl) : freeAll offs junk t =
    (do tblImpl.foreach t (fun obj => onNodes (objFree offs junk obj)); tblImpl.done t : MM Unit) := by
  cases t <;> rfl

/-! ### The program -/

/-- The memory without the vectors of the table `i`. -/
def without (m : Mem) (owner : Nat → Option Nat) (i : Nat) : Mem :=
  { m with vlen := fun v => if owner v = some i then none else m.vlen v }

omit [Arch] in
theorem without_cell {owner : Nat → Option Nat} {i : Nat} {q : Ref} {p : Ptr} :
    (without m owner i).cell? q = some p ↔ owner q.vec ≠ some i ∧ m.cell? q = some p := by
  by_cases h : owner q.vec = some i
  · simp [without, Mem.cell?, h]
  · simp [without, Mem.cell?, h]

/-- The invariant. -/
structure Inv (m0 : Mem) (s : St) (a : Ab) (owner : Nat → Option Nat) : Prop where
  live : a.live = s.mem.heap.valid
  liveOk : LiveOk a.live
  dom : ∀ i, s.tbl i = none ↔ a.val i = none
  good : ∀ i t es, s.tbl i = some t → a.val i = some es → Good (without s.mem owner i) t s.mem es
  apart : ∀ i j p, i ≠ j → a.within i p → ¬ a.within j p
  fresh : s.mem.FreshOk
  own : ∀ v i, owner v = some i → s.mem.vlen v ≠ none ∧ m0.vlen v = none ∧ s.tbl i ≠ none
  rest : ∀ v, owner v = none → s.mem.vlen v = m0.vlen v
  keep : ∀ q p, m0.cell? q = some p → s.mem.cell? q = some p

variable {s : St} {a : Ab} {owner : Nat → Option Nat}

theorem Inv.table (I : Inv m0 s a owner) {i : Nat} {es : List Elem} (h : a.val i = some es) :
    ∃ t, s.tbl i = some t ∧ Good (without s.mem owner i) t s.mem es := by
  cases ht : s.tbl i with
  | none => rw [(I.dom i).1 ht] at h; cases h
  | some t => exact ⟨t, rfl, I.good i t es ht h⟩

theorem Inv.dead (I : Inv m0 s a owner) {i v : Nat} (h : (without s.mem owner i).vlen v = none) : m0.vlen v = none := by
  cases ho : owner v with
  | some j => exact (I.own v j ho).2.1
  | none =>
    rw [← I.rest v ho]
    simpa [without, ho] using h

/-- The table `i` changes, or is created or destroyed. -/
theorem Inv.change (I : Inv m0 s a owner) (i : Nat) {t' : Option Tbl} {es' : Option (List Elem)} {live' : Ptr → Bool}
    (hd : t' = none ↔ es' = none) (hg : ∀ t es, t' = some t → es' = some es → Good (without s.mem owner i) t m' es)
    (hn : t' = none → m'.vlen = (without s.mem owner i).vlen)
    (kv : ∀ v, (without s.mem owner i).vlen v ≠ none → m'.vlen v = (without s.mem owner i).vlen v)
    (kc : ∀ q p, (without s.mem owner i).cell? q = some p → m'.cell? q = some p) (fr : m'.FreshOk)
    (hs : ∀ j p, j ≠ i → a.within j p → SameNode s.mem.heap m'.heap p)
    (ha : ∀ es j p, es' = some es → p ∈ es.map Elem.node → j ≠ i → ¬ a.within j p)
    (hl : live' = m'.heap.valid) (hlo : LiveOk live') :
    ∃ owner', Inv m0 ⟨m', upd s.tbl i t'⟩ ⟨upd a.val i es', live'⟩ owner' := by
  classical
  let own' : Nat → Option Nat := fun v => if (without s.mem owner i).vlen v = none then
    (if m'.vlen v = none then none else some i) else owner v
  have o1 : ∀ v, (without s.mem owner i).vlen v = none → m'.vlen v = none → own' v = none := fun v h1 h2 => by simp [own', h1, h2]
  have o2 : ∀ v, (without s.mem owner i).vlen v = none → m'.vlen v ≠ none → own' v = some i := fun v h1 h2 => by simp [own', h1, h2]
  have o3 : ∀ v, (without s.mem owner i).vlen v ≠ none → own' v = owner v := fun v h1 => by simp [own', h1]
  have w1 : ∀ v, (without s.mem owner i).vlen v ≠ none → owner v ≠ some i ∧ (without s.mem owner i).vlen v = s.mem.vlen v := by
    intro v h
    by_cases e : owner v = some i
    · simp [without, e] at h
    · exact ⟨e, by simp [without, e]⟩
  have w2 : ∀ v j, j ≠ i → owner v = some j → (without s.mem owner i).vlen v ≠ none := by
    intro v j hj ho
    have : owner v ≠ some i := by rw [ho]; simpa using hj
    simp only [without, if_neg this]
    exact (I.own v j ho).1
  have oi : ∀ v, own' v = some i → (without s.mem owner i).vlen v = none ∧ m'.vlen v ≠ none := by
    intro v h
    by_cases h1 : (without s.mem owner i).vlen v = none
    · refine ⟨h1, fun h2 => ?_⟩
      rw [o1 v h1 h2] at h; cases h
    · rw [o3 v h1] at h
      exact absurd h (w1 v h1).1
  have oj : ∀ v j, j ≠ i → (own' v = some j ↔ owner v = some j) := by
    intro v j hj
    by_cases h1 : (without s.mem owner i).vlen v = none
    · constructor
      · intro h
        by_cases h2 : m'.vlen v = none
        · rw [o1 v h1 h2] at h; cases h
        · rw [o2 v h1 h2] at h; injection h with h; exact absurd h.symm hj
      · intro h; exact absurd h1 (w2 v j hj h)
    · rw [o3 v h1]
  have hw : ∀ j p, j ≠ i → (Ab.within ⟨upd a.val i es', live'⟩ j p ↔ a.within j p) := by
    intro j p hj
    simp only [Ab.within, upd_ne hj]
  refine ⟨own', ⟨hl, hlo, fun j => ?_, fun j t es ht he => ?_, fun j k p hjk hj hk => ?_, fr, fun v j ho => ?_, fun v ho => ?_,
    fun q p h => ?_⟩⟩
  · by_cases hj : j = i
    · subst hj; simpa using hd
    · simp only [upd_ne hj]; exact I.dom j
  · by_cases hj : j = i
    · subst hj
      simp only [upd_same] at ht he
      refine (hg t es ht he).move ⟨fun v h1 h2 => ⟨rfl, ?_⟩, fun v h => ?_, fr, fun q p _ h => h, fun q p h => (without_cell.1 h).2⟩
        fun e _ => SameNode.refl _ _
      · simp [without, o2 v h1 h2]
      · by_cases e : own' v = some j
        · rcases h with h | h
          · exact absurd (oi v e).1 h
          · exact absurd h (oi v e).2
        · simp [without, e]
    · simp only [upd_ne hj] at ht he
      refine (I.good j t es ht he).move ⟨fun v h1 h2 => ?_, fun v h => ?_, fr, fun q p h1 h2 => ?_, fun q p h => (without_cell.1 h).2⟩
        fun e hx => hs j _ hj ⟨es, he, List.mem_map_of_mem hx⟩
      · have ho : owner v = some j := by
          by_contra hne
          simp only [without, if_neg hne] at h1
          exact h2 h1
        have hn := w2 v j hj ho
        refine ⟨?_, ?_⟩
        · show m'.vlen v = s.mem.vlen v
          rw [kv v hn, (w1 v hn).2]
        · simp [without, (oj v j hj).2 ho]
      · have : own' v ≠ some j := by
          intro e
          have ho := (oj v j hj).1 e
          rcases h with h | h
          · simp [without, ho] at h
          · exact (I.own v j ho).1 h
        simp [without, this]
      · have ho : owner q.vec = some j := by
          by_contra hne
          simp only [without, if_neg hne] at h1
          simp [Mem.cell?, h1] at h2
        refine kc q p (without_cell.2 ⟨?_, h2⟩)
        rw [ho]; simpa using hj
  · by_cases h1 : j = i
    · subst h1
      obtain ⟨es, h3, h4⟩ := hj
      simp only [upd_same] at h3
      exact ha es k p h3 h4 (Ne.symm hjk) ((hw k p (Ne.symm hjk)).1 hk)
    · by_cases h2 : k = i
      · subst h2
        obtain ⟨es, h3, h4⟩ := hk
        simp only [upd_same] at h3
        exact ha es j p h3 h4 h1 ((hw j p h1).1 hj)
      · exact I.apart j k p hjk ((hw j p h1).1 hj) ((hw k p h2).1 hk)
  · by_cases hj : j = i
    · subst hj
      obtain ⟨h1, h2⟩ := oi v ho
      refine ⟨h2, I.dead h1, ?_⟩
      simp only [upd_same]
      intro e
      exact h2 (by rw [hn e]; exact h1)
    · have ho' := (oj v j hj).1 ho
      obtain ⟨h1, h2, h3⟩ := I.own v j ho'
      have hw := w2 v j hj ho'
      refine ⟨?_, h2, by simp only [upd_ne hj]; exact h3⟩
      show m'.vlen v ≠ none
      rw [kv v hw, (w1 v hw).2]; exact h1
  · by_cases h1 : (without s.mem owner i).vlen v = none
    · by_cases h2 : m'.vlen v = none
      · show m'.vlen v = _
        rw [h2, I.dead h1]
      · rw [o2 v h1 h2] at ho; cases ho
    · rw [o3 v h1] at ho
      show m'.vlen v = _
      rw [kv v h1, (w1 v h1).2, I.rest v ho]
  · refine kc q p (without_cell.2 ⟨fun ho => ?_, I.keep q p h⟩)
    simp [Mem.cell?, (I.own _ i ho).2.1] at h

/-- The program writes nodes that are in no table. -/
theorem Inv.nodes (I : Inv m0 s a owner) {h' : Heap} {live' : Ptr → Bool}
    (hs : ∀ p, a.stored p → SameNode s.mem.heap h' p) (hl : live' = h'.valid) (hlo : LiveOk live') :
    Inv m0 { s with mem := { s.mem with heap := h' } } { a with live := live' } owner where
  live := hl
  liveOk := hlo
  dom := I.dom
  good i t es ht he := (I.good i t es ht he).move (m' := { s.mem with heap := h' })
    ⟨fun v h1 _ => ⟨rfl, h1⟩, fun v h => by
      show s.mem.vlen v = if owner v = some i then none else s.mem.vlen v
      split
      · rename_i e
        rcases h with h | h
        · simp [without, e] at h
        · exact h
      · rfl, I.fresh, fun q p _ h => h, fun q p h => (without_cell.1 h).2⟩
    fun e hx => hs _ ⟨i, es, he, List.mem_map_of_mem hx⟩
  apart := I.apart
  fresh := I.fresh
  own := I.own
  rest := I.rest
  keep := I.keep

theorem Inv.hash (I : Inv m0 s a owner) {i : Nat} {t : Tbl} {es : List Elem} (ht : s.tbl i = some t) (he : a.val i = some es) :
    HashSpec.Inv (Good (without s.mem owner i)) ⟨s.mem, t⟩ ⟨es, a.live⟩ :=
  ⟨I.good i t es ht he, I.live, I.liveOk⟩

omit [Arch] in
theorem next_live {es : List Elem} {live : Ptr → Bool} {op : HashSpec.Op} {out : HashSpec.Out} (hc : HashSpec.isCall op) :
    (HashSpec.next ⟨es, live⟩ op out).live = live := by
  cases op <;> first | rfl | exact hc.elim

omit [Arch] in
theorem next_nodes {es : List Elem} {live : Ptr → Bool} {op : HashSpec.Op} {out : HashSpec.Out} {p : Ptr}
    (h : p ∈ (HashSpec.next ⟨es, live⟩ op out).elems.map Elem.node) : p ∈ es.map Elem.node ∨ given op = some p := by
  cases op with
  | insert q d k =>
    simp only [HashSpec.next, List.map_append, List.mem_append, List.map_cons, List.map_nil, List.mem_singleton] at h
    rcases h with h | h
    · exact .inl h
    · exact .inr (by rw [h]; rfl)
  | remove cmp k =>
    obtain ⟨x, hx, rfl⟩ := List.mem_map.1 h
    exact .inl (List.mem_map_of_mem (List.mem_of_mem_eraseP hx))
  | removeExisting q =>
    obtain ⟨x, hx, rfl⟩ := List.mem_map.1 h
    exact .inl (List.mem_map_of_mem (List.mem_filter.1 hx).1)
  | _ => exact .inl h

omit [Arch] in
theorem mayWrite_given {es : List Elem} {live : Ptr → Bool} {op : HashSpec.Op} {q : Ptr}
    (h : HashSpec.mayWrite ⟨es, live⟩ op q) : q ∈ es.map Elem.node ∨ given op = some q := by
  rcases h with h | h
  · exact .inl h
  · cases op <;> first | exact h.elim | exact .inr (by rw [show q = _ from h]; rfl)

theorem liveOk_sub {live live' : Ptr → Bool} (h : LiveOk live) (sub : ∀ p, live' p = true → live p = true) : LiveOk live' := by
  refine ⟨?_, fun q hq => h.bound q (sub q hq), fun q r hq hr => h.apart q r (sub q hq) (sub r hr)⟩
  by_contra h0
  rw [Bool.not_eq_false] at h0
  have := sub _ h0
  rw [h.zero] at this; cases this

theorem liveOk_alloc {live : Ptr → Bool} (h : LiveOk live) {p : Ptr} (hf : Fits live p) : LiveOk (upd live p true) := by
  obtain ⟨h0, hb, hap⟩ := hf
  refine ⟨?_, ?_, ?_⟩
  · rw [upd_ne (Ne.symm h0)]; exact h.zero
  · intro q hq
    rw [upd_apply] at hq
    split at hq
    · rename_i e; rw [e]; exact hb
    · exact h.bound q hq
  · intro q r hq hr hqr
    rw [upd_apply] at hq hr
    split at hq
    · rename_i e
      rw [if_neg (by rw [e] at hqr; exact hqr.symm)] at hr
      rw [e]; exact hap r hr
    · split at hr
      · rename_i e
        rw [e]; exact (hap q hq).symm
      · exact h.apart q r hq hr hqr

omit [Arch] in
theorem inside_iff {offs : List Nat} {es : List Elem} {p : Ptr} : inside offs es p = true ↔ Inside offs (es.map Elem.data) p := by
  simp only [inside, Inside, List.any_eq_true, List.mem_map, beq_iff_eq]
  constructor
  · rintro ⟨e, he, o, ho, rfl⟩
    exact ⟨e.data, ⟨e, he, rfl⟩, o, ho, rfl⟩
  · rintro ⟨d, ⟨e, he, rfl⟩, o, ho, rfl⟩
    exact ⟨e, he, o, ho, rfl⟩

theorem step_inv (I : Inv m0 s a owner) {op : Op} (hl : legal a op) :
    ∃ out s', step op s = some (out, s') ∧ allowed a op out ∧ ∃ owner', Inv m0 s' (next a op out) owner' := by
  cases op with
  | init i k =>
    obtain ⟨hv, hk⟩ := hl
    have hb : without s.mem owner i = s.mem := by
      have : (fun v => if owner v = some i then none else s.mem.vlen v) = s.mem.vlen := by
        funext v
        split
        · rename_i e; exact absurd ((I.dom i).2 hv) (I.own v i e).2.2
        · rfl
      simp only [without, this]
    obtain ⟨t, m, e, g, hh⟩ := start_ok (k := k) (m0 := s.mem) (fun n hn => by subst hn; exact hk)
      ⟨by rw [← I.live]; exact I.liveOk, I.fresh⟩
    refine ⟨.unit, ⟨m, upd s.tbl i (some t)⟩, by simp [step, e], rfl, ?_⟩
    refine I.change i (t' := some t) (es' := some []) (by simp) ?_ (by simp) ?_ ?_ g.fresh ?_ ?_ ?_ I.liveOk
    · intro t' es' h1 h2
      cases h1; cases h2
      rw [hb]; exact g
    · rw [hb]; exact g.vkeep
    · rw [hb]; exact (tbl_ok s.mem).keep g
    · intro j p _ _; rw [hh]; exact SameNode.refl _ _
    · intro es j p h1 h2; cases h1; simp at h2
    · rw [hh]; exact I.live
  | call i op =>
    obtain ⟨hc, ⟨es, he, hleg⟩, hgv⟩ := hl
    obtain ⟨t, ht, g⟩ := I.table he
    have hi := I.hash ht he
    obtain ⟨out, s', e, al, i'⟩ := HashSpec.step_inv (tbl_ok _) hi hleg
    obtain ⟨fv, fs⟩ := HashSpec.step_frame (tbl_ok _) hi hleg hc e
    have g' := i'.p
    refine ⟨out, ⟨s'.mem, upd s.tbl i (some s'.tbl)⟩, by simp [step, ht, e], ⟨es, he, al⟩, ?_⟩
    simp only [next, he, Option.map_some]
    refine I.change i (t' := some s'.tbl) (by simp) ?_ (by simp) g'.vkeep ((tbl_ok _).keep g') g'.fresh ?_ ?_ ?_ I.liveOk
    · intro t' es' h1 h2
      cases h1; cases h2
      exact g'
    · intro j p hj hp
      refine fs p fun hm => ?_
      rcases mayWrite_given hm with h | h
      · exact I.apart j i p hj hp ⟨es, he, h⟩
      · exact hgv p h ⟨j, hp⟩
    · intro es' j p h1 h2 hj hp
      cases h1
      rcases next_nodes h2 with h | h
      · exact I.apart j i p hj hp ⟨es, he, h⟩
      · exact hgv p h ⟨j, hp⟩
    · rw [← i'.live, next_live hc]
  | done i =>
    obtain ⟨es, he⟩ := Option.ne_none_iff_exists'.1 hl
    obtain ⟨t, ht, g⟩ := I.table he
    obtain ⟨m', e, hh, hv, hc⟩ := (tbl_ok _).done g
    refine ⟨.unit, ⟨m', upd s.tbl i none⟩, by simp [step, ht, e], rfl, ?_⟩
    refine I.change i (t' := none) (es' := none) (by simp) (by simp) (fun _ => hv) (fun v _ => by rw [hv]) hc ?_ ?_ (by simp) ?_ I.liveOk
    · intro v hv'
      rw [done_vnext e] at hv'
      have := I.fresh v hv'
      rw [hv]
      simp [without, this]
    · intro j p _ _; rw [hh]; exact SameNode.refl _ _
    · rw [hh]; exact I.live
  | destroy i offs off junk =>
    obtain ⟨es, he, hw, hj⟩ := hl
    obtain ⟨t, ht, g⟩ := I.table he
    obtain ⟨m1, m', e1, hn, e, ⟨f1, f2⟩, hv, hc⟩ := hash_freeAll' (junk := junk) (tbl_ok _) done_heap (I.hash ht he) hw
    simp only at e1 e f1 f2 hn
    rw [← freeAll_eq] at e
    refine ⟨.unit, ⟨m', upd s.tbl i none⟩, by simp [step, ht, e], rfl, ?_⟩
    simp only [next, he, Option.getD_some]
    have hv' : ∀ p, m'.heap.valid p = (a.live p && !inside offs es p) := by
      intro p
      by_cases h : inside offs es p = true
      · rw [f1 p (inside_iff.1 h), h]; simp
      · rw [(f2 p fun hi => h (inside_iff.2 hi)).1, I.live, Bool.eq_false_iff.2 h]; simp
    refine I.change i (t' := none) (es' := none) (by simp) (by simp) (fun _ => hv) (fun v _ => by rw [hv]) hc ?_ ?_ (by simp)
      (funext fun p => (hv' p).symm) (liveOk_sub I.liveOk fun p h => by simp only [Bool.and_eq_true] at h; exact h.1)
    · intro v h
      rw [hn, done_vnext e1] at h
      have := I.fresh v h
      rw [hv]
      simp [without, this]
    · intro j p hji hp
      have := hj j p hji hp
      obtain ⟨b1, b2, b3, b4, b5⟩ := f2 p fun hi => by rw [inside_iff.2 hi] at this; cases this
      exact ⟨fun h => ⟨h.1, by rw [b1]; exact h.2⟩, b2, b3, b4, b5⟩
  | alloc p =>
    refine ⟨.unit, _, rfl, rfl, owner, I.nodes ?_ (by rw [I.live]) (liveOk_alloc I.liveOk hl)⟩
    intro q _
    refine ⟨fun hok => ⟨hok.1, ?_⟩, rfl, rfl, rfl, rfl⟩
    simp only [upd_apply]
    split
    · rfl
    · exact hok.2
  | free p =>
    refine ⟨.unit, _, rfl, rfl, owner, I.nodes ?_ (by rw [I.live]) (liveOk_sub I.liveOk ?_)⟩
    · intro q hq
      have : q ≠ p := fun h => hl.2 (h ▸ hq)
      refine ⟨fun hok => ⟨hok.1, ?_⟩, rfl, rfl, rfl, rfl⟩
      simp only [upd_ne this]; exact hok.2
    · intro q hq
      rw [upd_apply] at hq
      split at hq
      · cases hq
      · exact hq
  | scribble p n q d x =>
    refine ⟨.unit, _, rfl, rfl, owner, I.nodes ?_ I.live I.liveOk⟩
    intro r hr
    have : r ≠ p := fun h => hl.2 (h ▸ hr)
    exact ⟨id, upd_ne this, upd_ne this, upd_ne this, upd_ne this⟩

theorem init_inv {s : St} {a : Ab} (h : (sys m0).init s a) : ∃ owner, Inv m0 s a owner := by
  obtain ⟨h0, hm, ht, hv, hl⟩ := h
  refine ⟨fun _ => none, ⟨by rw [hl, hm], by rw [hl]; exact h0.1, fun i => by simp [ht, hv], fun i t es h => ?_, fun i j p _ h => ?_,
    by rw [hm]; exact h0.2, (fun v i h => by cases h), fun v _ => by rw [hm], fun q p h => by rw [hm]; exact h⟩⟩
  · rw [ht i] at h; cases h
  · obtain ⟨es, h, _⟩ := h
    rw [hv i] at h; cases h

theorem sys_correct (m0 : Mem) : (sys m0).Correct ∧ ∀ s a, (sys m0).Reach s a → ∃ owner, Inv m0 s a owner :=
  ⟨Sys.correct_of_inv (Inv := fun s a => ∃ owner, Inv m0 s a owner) (fun _ _ => init_inv)
      (fun _ _ _ h hl => by obtain ⟨_, h⟩ := h; exact step_inv h hl),
    Sys.reach_inv (Inv := fun s a => ∃ owner, Inv m0 s a owner) (fun _ _ => init_inv)
      (fun _ _ _ h hl => by obtain ⟨_, h⟩ := h; exact step_inv h hl)⟩

end TablesSpec
end Tommy
