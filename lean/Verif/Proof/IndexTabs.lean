import Verif.Proof.Hashdyn
/-! Two tommy_hashdyn in the same memory. -/
set_option linter.unusedSimpArgs false
namespace Tommy

variable [Arch]
namespace HashSpec

/-- The memory without a vector. -/
def strip (m : Mem) (v : Nat) : Mem := { m with vlen := upd m.vlen v none }

omit [Arch] in
theorem strip_cell {m : Mem} {v : Nat} {q : Ref} (h : q.vec ≠ v) : (strip m v).cell? q = m.cell? q := by
  simp [strip, Mem.cell?, upd_ne h]

omit [Arch] in
theorem cell_of_strip {m : Mem} {v : Nat} {q : Ref} {p : Ptr} (h : (strip m v).cell? q = some p) :
    q.vec ≠ v ∧ m.cell? q = some p := by
  have : q.vec ≠ v := by
    intro e; simp [strip, Mem.cell?, e] at h
  exact ⟨this, by rw [← strip_cell this]; exact h⟩

omit [Arch] in
theorem Flat.vlen_self {m0 m : Mem} {r : Ref} {n : Nat} {es : List Elem} (f : Flat m0 m r n es) :
    m.vlen r.vec = some n := by rw [f.vlen]; simp

omit [Arch] in
theorem Flat.rebase {m0 m : Mem} {r : Ref} {n : Nat} {es : List Elem} (f : Flat m0 m r n es) :
    Flat (strip m r.vec) m r n es where
  off := f.off
  vlen := by
    funext v
    simp only [strip, upd_apply]
    split
    · rename_i h; rw [h, f.vlen_self]
    · rfl
  new := by simp [strip]
  used := f.used
  fresh := f.fresh
  keep q p h := (cell_of_strip h).2
  binv := f.binv

omit [Arch] in
/-- Another table of the same memory makes a call. -/
theorem Flat.other {m m' : Mem} {r : Ref} {n : Nat} {es : List Elem} (f : Flat (strip m r.vec) m r n es)
    {w : Nat} {r' : Ref} {n' : Nat} {es' : List Elem} (g : Flat (strip m w) m' r' n' es') (hw : r.vec ≠ w)
    (hs : ∀ e ∈ es, SameNode m.heap m'.heap e.node) :
    Flat (strip m' r.vec) m' r n es ∧ r'.vec ≠ r.vec := by
  have h1 : (strip m w).vlen r.vec = some n := by
    simp only [strip, upd_ne hw]; exact f.vlen_self
  have hne : r'.vec ≠ r.vec := by
    intro e
    have := g.new
    rw [e, h1] at this
    exact absurd this (by simp)
  have hv : m'.vlen r.vec = some n := by rw [g.vlen, upd_ne hne.symm]; exact h1
  refine ⟨⟨f.off, ?_, by simp [strip], ?_, g.fresh, fun q p h => (cell_of_strip h).2, ?_⟩, hne⟩
  · funext v
    simp only [strip, upd_apply]
    split
    · rename_i h; rw [h, hv]
    · rfl
  · by_contra h
    have := g.fresh r.vec (Nat.le_of_not_lt h)
    rw [hv] at this
    exact absurd this (by simp)
  · obtain ⟨B, b⟩ := f.binv
    refine ⟨B, b.congr (fun c hc => ?_) hs⟩
    obtain ⟨p, hp, _⟩ := b.cells c hc
    rw [hp]
    exact g.keep _ _ (by rw [strip_cell (by simpa [Ref.add] using hw)]; exact hp)

theorem DynInv.rebase {m0 m : Mem} {t : Hashdyn} {es : List Elem} (i : DynInv m0 t m es) :
    DynInv (strip m t.bucket.vec) t m es :=
  ⟨⟨i.max, i.mask, i.bit, i.bit_lt, i.count, i.flat.rebase⟩, i.load, i.low⟩

/-- Two tables in the same memory, initialised in `m0`. -/
structure Tabs (m0 m : Mem) (t u : Hashdyn) (es fs : List Elem) : Prop where
  a : DynInv (strip m t.bucket.vec) t m es
  b : DynInv (strip m u.bucket.vec) u m fs
  ne : t.bucket.vec ≠ u.bucket.vec
  vlen : ∀ v, v ≠ t.bucket.vec → v ≠ u.bucket.vec → m.vlen v = m0.vlen v
  newa : m0.vlen t.bucket.vec = none
  newb : m0.vlen u.bucket.vec = none
  keep : ∀ q p, m0.cell? q = some p → m.cell? q = some p

variable {m0 m m' : Mem} {t u t' : Hashdyn} {es fs es' : List Elem}

theorem Tabs.symm (T : Tabs m0 m t u es fs) : Tabs m0 m u t fs es :=
  ⟨T.b, T.a, T.ne.symm, fun v h1 h2 => T.vlen v h2 h1, T.newb, T.newa, T.keep⟩

theorem Tabs.step (T : Tabs m0 m t u es fs) (i : DynInv (strip m t.bucket.vec) t' m' es')
    (hs : ∀ e ∈ fs, SameNode m.heap m'.heap e.node) : Tabs m0 m' t' u es' fs := by
  obtain ⟨g, ne⟩ := T.b.flat.other i.flat T.ne.symm hs
  refine ⟨i.rebase, ⟨⟨T.b.max, T.b.mask, T.b.bit, T.b.bit_lt, T.b.count, g⟩, T.b.load, T.b.low⟩, ne, ?_, ?_,
    T.newb, ?_⟩
  · intro v h1 h2
    rw [i.flat.vlen, upd_ne h1]
    by_cases h : v = t.bucket.vec
    · subst h; simp [strip, T.newa]
    · simp only [strip, upd_ne h]; exact T.vlen v h h2
  · by_cases h : t'.bucket.vec = t.bucket.vec
    · rw [h]; exact T.newa
    · rw [← T.vlen _ h ne]
      have := i.flat.new
      simpa only [strip, upd_ne h] using this
  · intro q p h
    have h1 : q.vec ≠ t.bucket.vec := vec_ne_of_cell T.newa h
    exact i.flat.keep q p (by rw [strip_cell h1]; exact T.keep q p h)

theorem Tabs.congr (T : Tabs m0 m t u es fs) {h' : Heap} (hs : ∀ e ∈ es ++ fs, SameNode m.heap h' e.node) :
    Tabs m0 { m with heap := h' } t u es fs where
  a := (hashdyn_ok (strip m t.bucket.vec)).congr T.a (fun e he => hs e (by simp [he])) |>.rebase
  b := (hashdyn_ok (strip m u.bucket.vec)).congr T.b (fun e he => hs e (by simp [he])) |>.rebase
  ne := T.ne
  vlen := T.vlen
  newa := T.newa
  newb := T.newb
  keep := T.keep

theorem Tabs.init (h0 : StartOk m0) : ∃ t m1 u m, hashdynInit m0 = some (t, m1) ∧ hashdynInit m1 = some (u, m) ∧
    m.heap = m0.heap ∧ Tabs m0 m t u [] [] := by
  obtain ⟨t, m1, e1, i1, hh1⟩ := hashdynInit_spec h0
  have h1 : StartOk m1 := ⟨by rw [hh1]; exact h0.1, fun v hv => i1.flat.fresh v hv⟩
  obtain ⟨u, m, e2, i2, hh2⟩ := hashdynInit_spec h1
  refine ⟨t, m1, u, m, e1, e2, hh2.trans hh1, ?_⟩
  have a1 := i1.rebase
  have hnew := i2.flat.new
  have hne : u.bucket.vec ≠ t.bucket.vec := by
    intro e; rw [e, i1.flat.vlen_self] at hnew; exact absurd hnew (by simp)
  have hv : ∀ v, v ≠ u.bucket.vec → m.vlen v = m1.vlen v := by
    intro v h; rw [i2.flat.vlen, upd_ne h]
  have hv1 : ∀ v, v ≠ t.bucket.vec → m1.vlen v = m0.vlen v := by
    intro v h; rw [i1.flat.vlen, upd_ne h]
  have hc : ∀ q p, m1.cell? q = some p → m.cell? q = some p := i2.flat.keep
  refine ⟨⟨⟨a1.max, a1.mask, a1.bit, a1.bit_lt, a1.count, ?_⟩, a1.load, a1.low⟩, i2.rebase, hne.symm, ?_,
    i1.flat.new, ?_, ?_⟩
  · refine ⟨a1.flat.off, ?_, by simp [strip], ?_, i2.flat.fresh, fun q p h => (cell_of_strip h).2, ?_⟩
    · funext v
      simp only [strip, upd_apply]
      split
      · rename_i h; rw [h, hv _ hne.symm, i1.flat.vlen_self]
      · rfl
    · by_contra h
      have := i2.flat.fresh t.bucket.vec (Nat.le_of_not_lt h)
      rw [hv _ hne.symm, i1.flat.vlen_self] at this
      exact absurd this (by simp)
    · obtain ⟨B, b⟩ := i1.flat.binv
      refine ⟨B, b.congr (fun c hc' => ?_) (by simp)⟩
      obtain ⟨p, hp, _⟩ := b.cells c hc'
      rw [hp]
      exact hc _ _ hp
  · intro v h1 h2
    rw [hv v h2, hv1 v h1]
  · rw [← hv1 _ hne]; exact hnew
  · intro q p h
    exact hc q p (i1.flat.keep q p h)

theorem Tabs.insert (T : Tabs m0 m t u es fs) {n : Ptr} (d h : Nat) (hn : m.heap.ok n)
    (hne : n ∉ es.map Elem.node) (hf : ∀ e ∈ fs, e.node ≠ n ∧ e.node ∉ es.map Elem.node)
    (hl : es.length + 1 < 2 ^ (bktBit - 1)) :
    ∃ t' m', hashdynInsert t n d h m = some (t', m') ∧ Tabs m0 m' t' u (es ++ [⟨n, d, h⟩]) fs ∧
      m'.heap.valid = m.heap.valid ∧
      ∀ q, q ≠ n → q ∉ es.map Elem.node → SameNode m.heap m'.heap q := by
  obtain ⟨t', m', e, i, v, S⟩ := (hashdyn_ok (strip m t.bucket.vec)).insert d h T.a hn hne hl
  exact ⟨t', m', e, T.step i (fun x hx => S _ (hf x hx).1 (hf x hx).2), v, S⟩

theorem Tabs.remove (T : Tabs m0 m t u es fs) {e : Elem} (he : e ∈ es)
    (hf : ∀ e ∈ fs, e.node ∉ es.map Elem.node) (hl : es.length < 2 ^ (bktBit - 1)) :
    ∃ t' m', hashdynRemoveExisting t e.node m = some ((t', e.data), m') ∧
      Tabs m0 m' t' u (es.filter (fun x => x.node ≠ e.node)) fs ∧
      m'.heap.valid = m.heap.valid ∧ ∀ q, q ∉ es.map Elem.node → SameNode m.heap m'.heap q := by
  obtain ⟨t', m', e1, i, v, S⟩ := (hashdyn_ok (strip m t.bucket.vec)).removeExisting T.a he hl
  exact ⟨t', m', e1, T.step i (fun x hx => S _ (hf x hx)), v, S⟩

theorem Tabs.search (T : Tabs m0 m t u es fs) (cmp : Nat → Int) (h : Nat) :
    hashdynSearch t cmp h m = some (((es.find? (hit cmp h)).map Elem.data).getD 0, m) :=
  (hashdyn_ok (strip m t.bucket.vec)).search cmp h T.a

/-- The end of the two tables does not read the nodes. -/
theorem Tabs.done (T : Tabs m0 m t u es fs) (h' : Heap) : ∃ m1 m2, hashdynDone t { m with heap := h' } = some ((), m1) ∧
    hashdynDone u m1 = some ((), m2) ∧ m2.heap = h' ∧ m2.vlen = m0.vlen ∧
    ∀ q p, m0.cell? q = some p → m2.cell? q = some p := by
  refine ⟨{ m with heap := h', vlen := upd m.vlen t.bucket.vec none },
    { m with heap := h', vlen := upd (upd m.vlen t.bucket.vec none) u.bucket.vec none }, ?_, ?_, rfl, ?_, ?_⟩
  · simp [hashdynDone, vfree, T.a.flat.off, T.a.flat.vlen_self]
  · simp [hashdynDone, vfree, T.b.flat.off, upd_ne T.ne.symm, T.b.flat.vlen_self]
  · funext v
    simp only [upd_apply]
    split
    · rename_i h; rw [h, T.newb]
    · split
      · rename_i h; rw [h, T.newa]
      · rename_i h1 h2; exact T.vlen v h2 h1
  · intro q p h
    have h1 : q.vec ≠ t.bucket.vec := vec_ne_of_cell T.newa h
    have h2 : q.vec ≠ u.bucket.vec := vec_ne_of_cell T.newb h
    have := T.keep q p h
    simpa only [Mem.cell?, upd_ne h1, upd_ne h2] using this

end HashSpec
end Tommy
