import Verif.Proof.HashFlatSim
import Verif.Model.Hashlin
import Verif.Spec.Hash
/-! The lists in the cells and the loops of the hashtables, on the bytes. -/
set_option linter.unusedSimpArgs false
set_option linter.unusedVariables false
namespace Tommy

variable [Arch]
namespace HashFlat

variable {α β : Type} {G : Gh}

/-- `x'` does what `x` does. -/
def Does (x x' : MM α) : Prop := ∀ m a m', x m = some (a, m') → x' m = some (a, m')

omit [Arch] in
theorem Does.bind {x x' : MM α} {f f' : α → MM β} (h : Does x x') (hf : ∀ a, Does (f a) (f' a)) : Does (x >>= f) (x' >>= f') := by
  intro m b m' e
  simp only [run_bind, Option.bind_eq_some_iff] at e
  obtain ⟨⟨a, m1⟩, e1, e2⟩ := e
  simp only [run_bind, h _ _ _ e1, Option.bind_some]
  exact hf _ _ _ _ e2

theorem Sim.of {x x' : MM α} {y : BM β} {Q : α → β → Gh → Prop} (h : Does x x') (hs : Sim G x' y Q) : Sim G x y Q :=
  fun m W hr a m' e => hs m W hr a m' (h m a m' e)

omit [Arch] in
theorem onNodes_eq {x : HM α} {m m' : Mem} {a : α} (e : onNodes x m = some (a, m')) :
    ∃ h, x m.heap = some (a, h) ∧ m' = { m with heap := h } := by
  simp only [onNodes, zoom] at e
  split at e
  · cases e
  next r h e' => cases e; exact ⟨h, e', rfl⟩

omit [Arch] in
theorem onNodes_of {x : HM α} {m : Mem} {a : α} {h : Heap} (e : x m.heap = some (a, h)) : onNodes x m = some (a, { m with heap := h }) := by
  simp only [onNodes, zoom, e]

omit [Arch] in
theorem readRef_eq {r : Ref} {m m' : Mem} {l : Ptr} (e : readRef r m = some (l, m')) : m.cell? r = some l ∧ m' = m := by
  simp only [readRef, Option.map_eq_some_iff] at e
  obtain ⟨p, h, e⟩ := e
  cases e
  exact ⟨h, rfl⟩

omit [Arch] in
theorem readRef_of {r : Ref} {m : Mem} {l : Ptr} (e : m.cell? r = some l) : readRef r m = some (l, m) := by
  simp only [readRef, e, Option.map_some]

/-- The write of what is already there. -/
theorem writeRef_same {r : Ref} {m m' : Mem} {l : Ptr} (hc : m.cell? r = some l) {h : Heap} {u : Unit}
    (e : writeRef r l { m with heap := h } = some (u, m')) : m' = { m with heap := h } := by
  obtain ⟨n, h1, h2, h3, h4⟩ := cell_spec hc
  unfold writeRef at e
  split at e
  swap
  · cases e
  cases e
  simp only [Mem.mk.injEq, true_and, and_true]
  funext v
  by_cases e : v = r.vec
  · subst e
    rw [upd_same]
    funext i
    by_cases e : i = r.off.toNat
    · subst e; rw [upd_same, h4]
    · rw [upd_ne e]
  · rw [upd_ne e]

omit [Arch] in
theorem writeRef_heap {r : Ref} {m m' : Mem} {l : Ptr} {h h' : Heap} {u : Unit}
    (e : writeRef r l { m with heap := h } = some (u, m')) :
    writeRef r l { m with heap := h' } = some (u, { m' with heap := h' }) ∧ m'.heap = h := by
  unfold writeRef at e ⊢
  have : ({ m with heap := h' } : Mem).inside r = ({ m with heap := h } : Mem).inside r := rfl
  rw [this]
  split at e
  next hi => cases e; rw [if_pos hi]; exact ⟨rfl, rfl⟩
  · cases e

/-- `cellInsertTail` in the order of the C code. -/
def cellInsertTail' (r : Ref) (node : Ptr) (data : Nat) : MM Unit :=
  readRef r >>= fun head =>
  if head ≠ 0 then onNodes (listInsertTailNotEmpty head node) >>= fun _ => onNodes (setData node data)
  else onNodes (setPrev node node) >>= fun _ => onNodes (setNext node 0) >>= fun _ => writeRef r node >>= fun _ => onNodes (setData node data)

theorem does_insertTail (r : Ref) (node : Ptr) (data : Nat) : Does (cellInsertTail r node data) (cellInsertTail' r node data) := by
  intro m a m' e
  simp only [cellInsertTail, run_bind, Option.bind_eq_some_iff] at e
  obtain ⟨⟨l, m1⟩, e1, ⟨l', m2⟩, e2, e3⟩ := e
  obtain ⟨hc, rfl⟩ := readRef_eq e1
  obtain ⟨h2, e4, rfl⟩ := onNodes_eq e2
  clear e2
  simp only [cellInsertTail', run_bind, e1, Option.bind_some]
  by_cases hl : l = 0
  · simp only [listInsertTail, listHead, listInsertFirst, ne_eq, hl, not_true, if_false, run_bind, run_pure,
      Option.bind_eq_some_iff] at e4
    obtain ⟨⟨_, k1⟩, ⟨⟨_, k2⟩, g1, ⟨_, k3⟩, g2, g3⟩, ⟨_, k4⟩, g4, g5⟩ := e4
    simp only [Option.some.injEq, Prod.mk.injEq] at g3 g5
    obtain ⟨rfl, rfl⟩ := g3
    obtain ⟨rfl, rfl⟩ := g5
    obtain ⟨w, w2⟩ := writeRef_heap (h' := k3) e3
    simp only [ne_eq, hl, not_true, if_false, run_bind, onNodes_of g1, Option.bind_some, onNodes_of (m := { m1 with heap := k2 }) g2, w,
      onNodes_of (m := { m' with heap := k3 }) g4]
    cases m'; cases w2; rfl
  · simp only [listInsertTail, listHead, ne_eq, hl, not_false_eq_true, if_true, run_bind, run_pure,
      Option.bind_eq_some_iff, Option.bind_some] at e4
    obtain ⟨⟨_, k1⟩, g1, ⟨_, k4⟩, g4, g5⟩ := e4
    simp only [Option.some.injEq, Prod.mk.injEq] at g5
    obtain ⟨rfl, rfl⟩ := g5
    have := writeRef_same hc e3
    subst this
    simp only [ne_eq, hl, not_false_eq_true, if_true, run_bind, onNodes_of g1, Option.bind_some, onNodes_of (m := { m1 with heap := k1 }) g4]

theorem sim_insertTailNotEmpty (head : Nat) {node : Nat} (hn : node < 2 ^ sizeBit) :
    SimE G (onNodes (listInsertTailNotEmpty head node)) (blistInsertTailNotEmpty head node) fun _ _ => True := by
  simp only [listInsertTailNotEmpty, blistInsertTailNotEmpty, onNodes_bind]
  refine SimE.bind (sim_getPrev head) ?_
  rintro a _ ⟨rfl, ha⟩
  refine SimE.bind (sim_setPrev node ha) fun _ _ _ => ?_
  refine SimE.bind (sim_setPrev head hn) fun _ _ _ => ?_
  refine SimE.bind (sim_setNext node (by positivity)) fun _ _ _ => ?_
  refine SimE.bind (sim_getPrev node) ?_
  rintro a _ ⟨rfl, ha⟩
  exact sim_setNext a hn

theorem sim_insertTail (r : Ref) {node data : Nat} (hn : node < 2 ^ sizeBit) (hd : data < 2 ^ sizeBit) :
    SimE G (cellInsertTail r node data) (blistInsertTail (aR G.φ r) node data) fun _ _ => True := by
  refine Sim.of (does_insertTail r node data) ?_
  simp only [cellInsertTail', blistInsertTail]
  refine SimE.bind (sim_readRef r) ?_
  rintro a _ ⟨rfl, ha⟩
  refine Sim.ite Iff.rfl (fun _ => SimE.bind (sim_insertTailNotEmpty a hn) fun _ _ _ => sim_setData node hd) fun _ => ?_
  simp only [blistInsertFirst, bind_assoc]
  refine SimE.bind (sim_setPrev node hn) fun _ _ _ => ?_
  refine SimE.bind (sim_setNext node (by positivity)) fun _ _ _ => ?_
  exact SimE.bind (sim_writeRef r hn) fun _ _ _ => sim_setData node hd

/-- `cellRemoveExisting` in the order of the C code. -/
def cellRemoveExisting' (r : Ref) (node : Ptr) : MM Unit :=
  readRef r >>= fun head =>
  onNodes (getNext node) >>= fun nn =>
  if nn ≠ 0 then onNodes (getPrev node) >>= fun np => onNodes (setPrev nn np) >>= fun _ => rest head
  else onNodes (getPrev node) >>= fun np => onNodes (setPrev head np) >>= fun _ => rest head
where
  rest (head : Ptr) : MM Unit :=
    if head = node then onNodes (getNext node) >>= fun nn => writeRef r nn >>= fun _ => onNodes (getData node) >>= fun _ => Pure.pure ()
    else onNodes (getPrev node) >>= fun np => onNodes (getNext node) >>= fun nn => onNodes (setNext np nn) >>= fun _ =>
      onNodes (getData node) >>= fun _ => Pure.pure ()

omit [Arch] in
theorem getData_eq {p : Ptr} {h h' : Heap} {d : Nat} (e : getData p h = some (d, h')) : h' = h := by
  simp only [getData] at e
  split at e
  · cases e; rfl
  · cases e

theorem does_removeExisting (r : Ref) (node : Ptr) : Does (cellRemoveExisting r node) (cellRemoveExisting' r node) := by
  intro m a m' e
  simp only [cellRemoveExisting, run_bind, Option.bind_eq_some_iff] at e
  obtain ⟨⟨l, m1⟩, e1, ⟨x, m2⟩, e2, e3⟩ := e
  obtain ⟨hc, rfl⟩ := readRef_eq e1
  obtain ⟨h2, e4, rfl⟩ := onNodes_eq e2
  clear e2
  simp only [cellRemoveExisting', run_bind, e1, Option.bind_some]
  simp only [listRemoveExisting, listHead, run_bind, Option.bind_eq_some_iff] at e4
  obtain ⟨⟨nn, k0⟩, g0, e5⟩ := e4
  have rest : ∀ k1, (if l = node then do
        let list' ← getNext node
        let d ← getData node
        pure (list', d)
      else do
        let np ← getPrev node
        let nn ← getNext node
        setNext np nn
        let list' ← pure l
        let d ← getData node
        pure (list', d) : HM (Ptr × Nat)) k1 = some (x, h2) → cellRemoveExisting'.rest r node l { m1 with heap := k1 } = some (a, m') := by
    intro k1 g2
    unfold cellRemoveExisting'.rest
    by_cases hl : l = node
    · simp only [if_pos hl, run_bind, run_pure, Option.bind_eq_some_iff] at g2 ⊢
      obtain ⟨⟨l', k2⟩, g3, ⟨d, k3⟩, g4, g5⟩ := g2
      simp only [Option.some.injEq, Prod.mk.injEq] at g5
      obtain ⟨rfl, rfl⟩ := g5
      have := getData_eq g4
      subst this
      refine ⟨_, onNodes_of (m := { m1 with heap := k1 }) g3, _, e3, ?_⟩
      obtain ⟨_, w⟩ := writeRef_heap (h' := k3) e3
      refine ⟨(d, m'), ?_, rfl⟩
      have := onNodes_of (m := m') (x := getData node) (a := d) (h := k3) (by rw [w]; exact g4)
      rw [this]
      cases m'; cases w; rfl
    · simp only [if_neg hl, run_bind, run_pure, Option.bind_eq_some_iff, Option.bind_some] at g2 ⊢
      obtain ⟨⟨np, j1⟩, g5, ⟨nn', j2⟩, g6, ⟨_, j3⟩, g7, ⟨d, k3⟩, g4, g8⟩ := g2
      simp only [Option.some.injEq, Prod.mk.injEq] at g8
      obtain ⟨rfl, rfl⟩ := g8
      have := writeRef_same hc e3
      subst this
      exact ⟨_, onNodes_of (m := { m1 with heap := k1 }) g5, _, onNodes_of (m := { m1 with heap := j1 }) g6, _,
        onNodes_of (m := { m1 with heap := j2 }) g7, _, onNodes_of (m := { m1 with heap := j3 }) g4, rfl⟩
  simp only [onNodes_of g0, Option.bind_some]
  by_cases hnn : nn ≠ 0
  · simp only [if_pos hnn, run_bind, Option.bind_eq_some_iff] at e5 ⊢
    obtain ⟨⟨np, k2⟩, g1, ⟨_, k3⟩, g2, g3⟩ := e5
    exact ⟨_, onNodes_of (m := { m1 with heap := k0 }) g1, _, onNodes_of (m := { m1 with heap := k2 }) g2, rest _ g3⟩
  · simp only [if_neg hnn, run_bind, Option.bind_eq_some_iff] at e5 ⊢
    obtain ⟨⟨np, k2⟩, g1, ⟨_, k3⟩, g2, g3⟩ := e5
    exact ⟨_, onNodes_of (m := { m1 with heap := k0 }) g1, _, onNodes_of (m := { m1 with heap := k2 }) g2, rest _ g3⟩

theorem sim_removeExisting (r : Ref) (node : Nat) :
    SimE G (cellRemoveExisting r node) (blistRemoveExisting (aR G.φ r) node) fun _ _ => True := by
  refine Sim.of (does_removeExisting r node) ?_
  have hend : SimE G (onNodes (getData node) >>= fun _ => (Pure.pure () : MM Unit)) (bget (node + nodData)) fun _ _ => True := by
    have := SimE.bind (G := G) (sim_getData node) (f := fun _ => Pure.pure ()) (g := fun d => Pure.pure d) (Q' := fun _ _ G' => G' = G ∧ True)
      (fun a b h => Sim.pure ⟨rfl, trivial⟩)
    rwa [bind_pure] at this
  simp only [cellRemoveExisting', blistRemoveExisting]
  refine SimE.bind (sim_readRef r) ?_
  rintro head _ ⟨rfl, hh⟩
  refine SimE.bind (sim_getNext node) ?_
  rintro nn _ ⟨rfl, hnn⟩
  have hrest : SimE G (cellRemoveExisting'.rest r node head) (if head = node then do
      let nn ← bget (node + nodNext)
      bset (aR G.φ r) nn
      bget (node + nodData)
    else do
      let np ← bget (node + nodPrev)
      let nn ← bget (node + nodNext)
      bset (np + nodNext) nn
      bget (node + nodData) : BM Nat) fun _ _ => True := by
    unfold cellRemoveExisting'.rest
    refine Sim.ite Iff.rfl (fun _ => ?_) fun _ => ?_
    · refine SimE.bind (sim_getNext node) ?_
      rintro nn _ ⟨rfl, h⟩
      exact SimE.bind (sim_writeRef r h) fun _ _ _ => hend
    · refine SimE.bind (sim_getPrev node) ?_
      rintro np _ ⟨rfl, h⟩
      refine SimE.bind (sim_getNext node) ?_
      rintro nn _ ⟨rfl, h⟩
      exact SimE.bind (sim_setNext np h) fun _ _ _ => hend
  refine Sim.ite Iff.rfl (fun _ => ?_) fun _ => ?_
  · refine SimE.bind (sim_getPrev node) ?_
    rintro np _ ⟨rfl, h⟩
    exact SimE.bind (sim_setPrev nn h) fun _ _ _ => hrest
  · refine SimE.bind (sim_getPrev node) ?_
    rintro np _ ⟨rfl, h⟩
    exact SimE.bind (sim_setPrev head h) fun _ _ _ => hrest

/-- `cellConcat` in the order of the C code. -/
def cellConcat' (r q : Ref) : MM Unit :=
  readRef q >>= fun k =>
  if k = 0 then Pure.pure () else
  readRef r >>= fun l =>
  if l = 0 then writeRef r k >>= fun _ => Pure.pure () else
  onNodes (getPrev l) >>= fun tail => onNodes (getPrev k) >>= fun sp => onNodes (setPrev l sp) >>= fun _ =>
  onNodes (setPrev k tail) >>= fun _ => onNodes (setNext tail k)

theorem does_concat (r q : Ref) : Does (cellConcat r q) (cellConcat' r q) := by
  intro m a m' e
  simp only [cellConcat, run_bind, Option.bind_eq_some_iff] at e
  obtain ⟨⟨l, m1⟩, e1, ⟨k, m2⟩, e2, ⟨x, m3⟩, e3, e4⟩ := e
  obtain ⟨hc, rfl⟩ := readRef_eq e1
  obtain ⟨hc2, rfl⟩ := readRef_eq e2
  obtain ⟨h2, e5, rfl⟩ := onNodes_eq e3
  clear e3
  simp only [cellConcat', run_bind, e2, Option.bind_some]
  by_cases hk : k = 0
  · simp only [listConcat, listHead, hk, if_true, run_pure, Option.some.injEq, Prod.mk.injEq] at e5
    obtain ⟨rfl, rfl⟩ := e5
    have := writeRef_same hc e4
    subst this
    rw [if_pos hk]; rfl
  · rw [if_neg hk]
    simp only [run_bind, e1, Option.bind_some]
    by_cases hl : l = 0
    · simp only [listConcat, listHead, hk, hl, if_true, if_false, run_pure, Option.some.injEq, Prod.mk.injEq] at e5
      obtain ⟨rfl, rfl⟩ := e5
      rw [if_pos hl]
      have e6 : writeRef r k m2 = some (a, m') := e4
      simp only [run_bind, e6, Option.bind_some]; rfl
    · simp only [listConcat, listHead, hk, hl, if_false, run_bind, run_pure, Option.bind_eq_some_iff, Option.some.injEq, Prod.mk.injEq] at e5
      obtain ⟨⟨tail, k1⟩, g1, ⟨sp, k2⟩, g2, ⟨_, k3⟩, g3, ⟨_, k4⟩, g4, ⟨_, k5⟩, g5, g6⟩ := e5
      obtain ⟨rfl, rfl⟩ := g6
      have := writeRef_same hc e4
      subst this
      rw [if_neg hl]
      simp only [run_bind, onNodes_of g1, Option.bind_some, onNodes_of (m := { m2 with heap := k1 }) g2,
        onNodes_of (m := { m2 with heap := k2 }) g3, onNodes_of (m := { m2 with heap := k3 }) g4, onNodes_of (m := { m2 with heap := k4 }) g5]

theorem sim_concat (r q : Ref) : SimE G (cellConcat r q) (blistConcat (aR G.φ r) (aR G.φ q)) fun _ _ => True := by
  refine Sim.of (does_concat r q) ?_
  unfold cellConcat' blistConcat
  refine SimE.bind (sim_readRef q) ?_
  rintro k _ ⟨rfl, hk⟩
  refine Sim.ite Iff.rfl (fun _ => Sim.pure ⟨rfl, trivial⟩) fun _ => ?_
  refine SimE.bind (sim_readRef r) ?_
  rintro l _ ⟨rfl, hl⟩
  refine Sim.ite Iff.rfl (fun _ => SimE.bind (sim_writeRef r hk) fun _ _ _ => Sim.pure ⟨rfl, trivial⟩) fun _ => ?_
  refine SimE.bind (sim_getPrev l) ?_
  rintro tail _ ⟨rfl, ht⟩
  refine SimE.bind (sim_getPrev k) ?_
  rintro sp _ ⟨rfl, hs⟩
  refine SimE.bind (sim_setPrev l hs) fun _ _ _ => ?_
  refine SimE.bind (sim_setPrev k ht) fun _ _ _ => ?_
  exact sim_setNext tail hk

/-! ### Loops -/

theorem sim_searchLoop (cmp : Nat → Int) (hash i : Nat) :
    SimE G (onNodes (hashSearchLoop cmp hash i)) (bhashSearchLoop cmp hash i) fun a b => a = b := by
  revert i
  refine hashSearchLoop.fixpoint_induct cmp hash
    (fun f => ∀ i, SimE G (onNodes (f i)) (bhashSearchLoop cmp hash i) fun a b => a = b) ?_ ?_
  · exact adm_fun fun i => Sim.admN _ _ _
  · intro f ih i
    rw [bhashSearchLoop]
    simp only [onNodes_bind, onNodes_ite, onNodes_pure]
    refine Sim.ite Iff.rfl (fun _ => Sim.pure ⟨rfl, rfl⟩) fun _ => ?_
    refine SimE.bind (sim_getIndex i) ?_
    rintro a _ ⟨rfl, _⟩
    refine Sim.ite Iff.rfl (fun _ => ?_) fun _ => ?_
    · refine SimE.bind (sim_getData i) ?_
      rintro d _ ⟨rfl, _⟩
      refine Sim.ite Iff.rfl (fun _ => Sim.pure ⟨rfl, rfl⟩) fun _ => ?_
      refine SimE.bind (sim_getNext i) ?_
      rintro n _ ⟨rfl, _⟩
      exact ih n
    · refine SimE.bind (sim_getNext i) ?_
      rintro n _ ⟨rfl, _⟩
      exact ih n

theorem sim_findLoop (cmp : Nat → Int) (hash i : Nat) :
    SimE G (onNodes (hashFindLoop cmp hash i)) (bhashFindLoop cmp hash i) fun a b => a = b := by
  revert i
  refine hashFindLoop.fixpoint_induct cmp hash
    (fun f => ∀ i, SimE G (onNodes (f i)) (bhashFindLoop cmp hash i) fun a b => a = b) ?_ ?_
  · exact adm_fun fun i => Sim.admN _ _ _
  · intro f ih i
    rw [bhashFindLoop]
    simp only [onNodes_bind, onNodes_ite, onNodes_pure]
    refine Sim.ite Iff.rfl (fun _ => Sim.pure ⟨rfl, rfl⟩) fun _ => ?_
    refine SimE.bind (sim_getIndex i) ?_
    rintro a _ ⟨rfl, _⟩
    refine Sim.ite Iff.rfl (fun _ => ?_) fun _ => ?_
    · refine SimE.bind (sim_getData i) ?_
      rintro d _ ⟨rfl, _⟩
      refine Sim.ite Iff.rfl (fun _ => Sim.pure ⟨rfl, rfl⟩) fun _ => ?_
      refine SimE.bind (sim_getNext i) ?_
      rintro n _ ⟨rfl, _⟩
      exact ih n
    · refine SimE.bind (sim_getNext i) ?_
      rintro n _ ⟨rfl, _⟩
      exact ih n

theorem sim_flushLoop {dest : Nat → Ref} {bdest : Nat → Nat} (hd : ∀ x, bdest x = aR G.φ (dest x)) {j : Nat} (hj : j < 2 ^ sizeBit) :
    SimE G (flushLoop dest j) (bflushLoop bdest j) fun _ _ => True := by
  refine (?_ : ∀ j, j < 2 ^ sizeBit → SimE G (flushLoop dest j) (bflushLoop bdest j) fun _ _ => True) j hj
  clear hj j
  refine flushLoop.fixpoint_induct dest
    (fun f => ∀ j, j < 2 ^ sizeBit → SimE G (f j) (bflushLoop bdest j) fun _ _ => True) ?_ ?_
  · refine adm_fun (P := fun j (x : MM Nat) => j < 2 ^ sizeBit → SimE G x (bflushLoop bdest j) fun _ _ => True) fun j => ?_
    by_cases hj : j < 2 ^ sizeBit
    · simp only [hj, forall_const]; exact Sim.adm _ _ _
    · intro c hc h e; exact absurd e hj
  · intro f ih j hj
    rw [bflushLoop]
    refine Sim.ite Iff.rfl (fun _ => Sim.pure ⟨rfl, trivial⟩) fun _ => ?_
    refine SimE.bind (sim_getNext j) ?_
    rintro jn _ ⟨rfl, hjn⟩
    refine SimE.bind (sim_getIndex j) ?_
    rintro idx _ ⟨rfl, hidx⟩
    rw [hd]
    refine SimE.bind (sim_readRef (dest idx)) ?_
    rintro l _ ⟨rfl, hl⟩
    have hend : SimE G (f jn >>= fun moved => (Pure.pure (moved + 1) : MM Nat)) (bflushLoop bdest jn) fun _ _ => True := by
      have := SimE.bind (g := fun b => Pure.pure b) (f := fun moved => (Pure.pure (moved + 1) : MM Nat)) (ih jn hjn) (Q' := fun _ _ G' => G' = G ∧ True)
        fun a b _ => Sim.pure ⟨rfl, trivial⟩
      rwa [bind_pure] at this
    by_cases h0 : l ≠ 0
    · rw [if_pos h0, if_pos h0]
      exact SimE.bind (sim_insertTailNotEmpty l hj) fun _ _ _ => hend
    · rw [if_neg h0, if_neg h0]
      simp only [listInsertFirst, blistInsertFirst, onNodes_bind, onNodes_pure, bind_assoc, pure_bind]
      refine SimE.bind (sim_setPrev j hj) fun _ _ _ => ?_
      refine SimE.bind (sim_setNext j (by positivity)) fun _ _ _ => ?_
      exact SimE.bind (sim_writeRef (dest idx) hj) fun _ _ _ => hend

end HashFlat
end Tommy
