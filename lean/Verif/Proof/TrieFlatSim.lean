import Verif.Proof.TrieFlatAlloc
/-! The model on the bytes does what the model on the typed memory does. -/
set_option linter.unusedSimpArgs false
set_option linter.unusedVariables false
namespace Tommy

variable [Arch]
namespace FlatSpec
open HashSpec (Elem)
open TrieSpec (CfgOk)
open AllocSpec (AInv PoolInv acc_of rdP_congr wrP_out rdP_wrP rdP_wrP_out segSize segBlocks)

/-- What does not change during a call. `own`: the blocks that can be released; `prot`: the bytes which cannot be
    written, `byte0` their content; `sup`: all the blocks the allocator is going to return; `mal`: all the addresses
    malloc() is going to return; `ins`: blocks can be got, but not released. -/
structure Ctx where
  c : TrieCfg
  slack : Nat
  u : AllocSpec.Use
  id : Nat
  als : Nat → Option Alloc
  a0 : AllocSpec.Ab
  bs : Nat
  al : Nat
  own : Nat → Prop
  ext : Nat → Nat
  prot : Nat → Prop
  byte0 : Nat → Nat
  sup : List Nat
  mal : List Nat
  ins : Prop

structure CtxOk (X : Ctx) : Prop where
  cfg : CfgOk X.c
  bs : X.bs = ptrSize * X.c.treeMax
  room : ∀ b, X.u.base b → AllocSpec.Room X.slack X.bs X.al b
  ext : ∀ b, X.own b → X.ext b = 0
  ins : X.ins → ∀ b, ¬ X.own b

def Ctx.ab (X : Ctx) (fm : FMem) : AllocSpec.Ab := replay X.id X.a0 fm.log
def Ctx.st (X : Ctx) (fm : FMem) : AllocSpec.St := ⟨fm.mem, upd X.als X.id (some fm.al)⟩

/-- A list of blocks that the allocator is going to return. -/
def future (X : Ctx) (F : List Nat) (ms : List (Nat × (Nat → Nat))) : List Nat :=
  F ++ ms.flatMap fun m => segBlocks X.bs X.al m.1

structure Rel (X : Ctx) (un : Option (Nat × Nat)) (fm : FMem) (tm : TMem) : Prop where
  inv : AInv X.slack (X.st fm) (X.ab fm)
  pool : ∃ P F, (X.ab fm).pool X.id = some P ∧ P.bs = X.bs ∧ P.al = X.al ∧ PoolInv X.slack fm.mem fm.al P F ∧
    (X.ins → tm.supply = future X F fm.mallocs) ∧ ∀ b, X.own b → tm.csize b ≠ 0 → b ∈ P.used ∧ tm.csize b = X.c.treeMax
  fresh : MallocsOk X.slack X.u (X.ab fm) (segSize X.bs X.al) fm.mallocs
  mrel : MRel (X.ab fm) X.ext un fm.mem tm
  prot : ∀ x : Nat, X.prot x → (X.ab fm).UserByte x ∧ fm.mem.byte x = X.byte0 x ∧
    (∀ b : Nat, tm.csize b ≠ 0 → x < b ∨ b + ptrSize * tm.csize b ≤ x) ∧
    ∀ p : Nat, tm.heap.valid p = true → x < p ∨ p + nodeSize ≤ x
  unr : ∀ b i, un = some (b, i) → tm.csize b = X.c.treeMax
  extb : ∀ b, X.ext b ≠ 0 → tm.csize b ≠ 0
  trace : Trace X.id X.a0 fm.log
  sup : X.sup = gots fm.log ++ tm.supply
  frd : tm.freed = gaves fm.log
  mal : (∀ m ∈ fm.mallocs, m.1 ∈ X.mal) ∧ ∀ p b, AEvent.got p (some b) ∈ fm.log → b ∈ X.mal

variable {X : Ctx} {un : Option (Nat × Nat)} {fm : FMem} {tm : TMem}

/-- Write of 8 bytes of an object. -/
theorem Rel.write (h : Rel X un fm tm) {q v : Nat} {tm' : TMem} {un' : Option (Nat × Nat)} (hin : Inside (X.ab fm) q ptrSize)
    (hq : ∀ x, X.prot x → x < q ∨ q + ptrSize ≤ x)
    (hm : MRel (X.ab fm) X.ext un' { fm.mem with byte := wrP fm.mem.byte q v } tm')
    (hs : tm'.csize = tm.csize) (hv : tm'.heap.valid = tm.heap.valid) (hsu : tm'.supply = tm.supply)
    (hfr : tm'.freed = tm.freed) (hun : ∀ b i, un' = some (b, i) → tm.csize b = X.c.treeMax) :
    fset q v fm = some ((), { fm with mem := { fm.mem with byte := wrP fm.mem.byte q v } }) ∧
    Rel X un' { fm with mem := { fm.mem with byte := wrP fm.mem.byte q v } } tm' := by
  have hacc : fm.mem.acc q ptrSize = true := hin.acc h.inv (Nat.le_refl _) (Nat.le_refl _)
  have hb : ∀ x, wrP fm.mem.byte q v x ≠ fm.mem.byte x → (X.ab fm).UserByte x := fun x hx => by
    refine hin.user (p := q) (n := ptrSize) ?_ ?_
    · by_contra hlt
      exact hx (wrP_out (by omega))
    · by_contra hlt
      exact hx (wrP_out (by omega))
  obtain ⟨P, F, hP, h1, h2, h3, h4, h5⟩ := h.pool
  refine ⟨by simp only [fset, onB, AllocSpec.writeP_run hacc]; rfl, ?_⟩
  exact
    { inv := ainv_write (s := X.st fm) h.inv hb
      pool := ⟨P, F, hP, h1, h2, pool_write (s := X.st fm) h.inv hb hP h3, fun hi => hsu.trans (h4 hi), by rw [hs]; exact h5⟩
      fresh := h.fresh
      mrel := hm
      prot := fun x hx => by
        obtain ⟨g1, g2, g3, g4⟩ := h.prot x hx
        refine ⟨g1, ?_, by rw [hs]; exact g3, by rw [hv]; exact g4⟩
        simp only
        rw [wrP_out (hq x hx)]; exact g2
      unr := by rw [hs]; exact hun
      extb := by rw [hs]; exact h.extb
      trace := h.trace
      sup := by rw [hsu]; exact h.sup
      frd := hfr.trans h.frd
      mal := h.mal }

/-! ### Released blocks are not forgotten -/

def Mono {α : Type} (xt : TM α) : Prop := ∀ tm r tm', xt tm = some (r, tm') → ∃ l, tm'.freed = tm.freed ++ l

variable {α β : Type}

omit [Arch] in
theorem Mono.bind {xt : TM α} {ft : α → TM β} (h1 : Mono xt) (h2 : ∀ r, Mono (ft r)) : Mono (xt >>= ft) := by
  intro tm r tm2 e
  simp only [run_bind, Option.bind_eq_some_iff] at e
  obtain ⟨⟨r1, tm1⟩, e1, e2⟩ := e
  obtain ⟨l1, h1⟩ := h1 _ _ _ e1
  obtain ⟨l2, h2⟩ := h2 _ _ _ _ e2
  exact ⟨l1 ++ l2, by rw [h2, h1, List.append_assoc]⟩

omit [Arch] in
theorem Mono.pure (r : α) : Mono (Pure.pure r : TM α) := by
  intro tm r tm' e; cases e; exact ⟨[], by simp⟩

omit [Arch] in
theorem Mono.ite {c : Prop} [Decidable c] {x y : TM α} (h1 : Mono x) (h2 : Mono y) : Mono (if c then x else y) := by
  split <;> assumption

omit [Arch] in
theorem Mono.cellGet (l : Loc) : Mono (cellGet l) := by
  intro tm r tm' e
  unfold Tommy.cellGet at e
  split at e
  · cases e; exact ⟨[], by simp⟩
  · cases e

omit [Arch] in
theorem Mono.cellSet (l : Loc) (p : Ptr) : Mono (cellSet l p) := by
  intro tm r tm' e
  unfold Tommy.cellSet at e
  split at e
  · cases e; exact ⟨[], by simp⟩
  · cases e

omit [Arch] in
theorem Mono.onN (x : HM α) : Mono (onN x) := by
  intro tm r tm' e
  unfold Tommy.onN zoom at e
  split at e
  · cases e
  · cases e; exact ⟨[], by simp⟩

omit [Arch] in
theorem Mono.blockAlloc (n : Nat) : Mono (blockAlloc n) := by
  intro tm r tm' e
  unfold Tommy.blockAlloc at e
  split at e
  · cases e
  · cases e; exact ⟨[], by simp⟩

omit [Arch] in
theorem Mono.blockFree (b : Ptr) : Mono (blockFree b) := by
  intro tm r tm' e
  unfold Tommy.blockFree at e
  split at e
  · cases e
  · cases e; exact ⟨[b], rfl⟩

omit [Arch] in
theorem Mono.assertT (c : Prop) [Decidable c] : Mono (assertT c) := by
  intro tm r tm' e
  unfold Tommy.assertT at e
  split at e
  · cases e; exact ⟨[], by simp⟩
  · cases e

theorem Mono.shrKey (x y : Nat) : Mono (shrKey x y) := by
  intro tm r tm' e
  unfold Tommy.shrKey at e
  split at e
  · cases e; exact ⟨[], by simp⟩
  · cases e

theorem Mono.slot (c : TrieCfg) (x y : Nat) : Mono (trieSlot c x y) := Mono.bind (Mono.shrKey _ _) fun _ => Mono.pure _

omit [Arch] in
theorem Mono.clear (b : Ptr) : ∀ k i, Mono (clearCells b i k) := by
  intro k
  induction k with
  | zero => exact fun i => Mono.pure ()
  | succ k ih => exact fun i => Mono.bind (Mono.cellSet _ _) fun _ => ih _

/-- A step of a proof of `Mono`. -/
macro "mono1" : tactic => `(tactic| first
  | exact Mono.pure _ | exact Mono.cellGet _ | exact Mono.cellSet _ _ | exact Mono.onN _ | exact Mono.blockAlloc _
  | exact Mono.blockFree _ | exact Mono.assertT _ | exact Mono.shrKey _ _ | exact Mono.slot _ _ _ | exact Mono.clear _ _ _
  | refine Mono.bind ?_ ?_ | refine Mono.ite ?_ ?_ | intro _)

omit [Arch] in
theorem Mono.adm' {γ : Type} : Lean.Order.admissible (fun m : TM γ => Mono m) :=
  ST.adm fun (tm : TMem) (_ : γ) (tm' : TMem) => ∃ l, tm'.freed = tm.freed ++ l

theorem Mono.expand (c : TrieCfg) : ∀ nc shift l node insert key, Mono (trieExpand c nc shift l node insert key) := by
  intro nc shift l node insert key
  revert nc shift l
  refine trieExpand.fixpoint_induct c node insert key (fun f => ∀ nc shift l, Mono (f nc shift l)) ?_ ?_
  · exact adm_fun fun (_ : Nat) => adm_fun fun (_ : Nat) => adm_fun fun (_ : Loc) => Mono.adm'
  · intro f ih nc shift l
    repeat' (first | exact ih _ _ _ | mono1)

theorem Mono.bucketInsert (c : TrieCfg) : ∀ nc shift l insert key, Mono (trieBucketInsert c nc shift l insert key) := by
  intro nc shift l insert key
  revert shift l
  refine trieBucketInsert.fixpoint_induct c nc insert key (fun f => ∀ shift l, Mono (f shift l)) ?_ ?_
  · exact adm_fun fun (_ : Nat) => adm_fun fun (_ : Loc) => Mono.adm'
  · intro f ih shift l
    repeat' (first | exact ih _ _ | exact Mono.expand _ _ _ _ _ _ _ | mono1)

omit [Arch] in
theorem Mono.scan (tree : Ptr) : ∀ k i count last, Mono (trieScan tree i count last k) := by
  intro k
  induction k with
  | zero => exact fun _ _ _ => Mono.pure _
  | succ k ih => 
    intro i count last
    unfold trieScan
    repeat' (first | exact ih _ _ _ | mono1)

theorem Mono.reduce (c : TrieCfg) : ∀ back nc, Mono (trieReduce c nc back) := by
  intro back
  induction back with
  | nil => exact fun nc => Mono.pure _
  | cons l back ih =>
    intro nc
    unfold trieReduce
    refine Mono.bind (Mono.cellGet _) fun p => Mono.bind (Mono.scan _ _ _ _ _) fun r => ?_
    cases r with
    | none => exact Mono.pure _
    | some r => repeat' (first | exact ih _ | mono1)

omit [Arch] in
theorem Mono.pick (node remove : Ptr) (key : Nat) : Mono (triePick node remove key) := by
  unfold triePick
  repeat' mono1

theorem Mono.bucketRemove (c : TrieCfg) : ∀ nc shift l remove key back,
    Mono (trieBucketRemoveExisting c nc shift l remove key back) := by
  intro nc shift l remove key back
  revert shift l back
  refine trieBucketRemoveExisting.fixpoint_induct c nc remove key (fun f => ∀ shift l back, Mono (f shift l back)) ?_ ?_
  · exact adm_fun fun (_ : Nat) => adm_fun fun (_ : Loc) => adm_fun fun (_ : List Loc) => Mono.adm'
  · intro f ih shift l back
    repeat' (first | exact ih _ _ _ | exact Mono.pick _ _ _ | exact Mono.reduce _ _ _ | mono1)

theorem Mono.bucketLoop (c : TrieCfg) : ∀ ptr shift key, Mono (trieBucketLoop c ptr shift key) := by
  intro ptr shift key
  revert ptr shift
  refine trieBucketLoop.fixpoint_induct c key (fun f => ∀ ptr shift, Mono (f ptr shift)) ?_ ?_
  · exact adm_fun fun (_ : Nat) => adm_fun fun (_ : Nat) => Mono.adm'
  · intro f ih ptr shift
    repeat' (first | exact ih _ _ | mono1)

/-- What `xt` does on the typed memory, `xf` does on the bytes, if `xt` releases only blocks that can be released. -/
def Sim {α : Type} (X : Ctx) (un : Option (Nat × Nat)) (un' : α → Option (Nat × Nat)) (Q : α → Prop) (xf : FM α)
    (xt : TM α) : Prop :=
  ∀ tm r tm', xt tm = some (r, tm') → ∀ fm, Rel X un fm tm → (∀ b ∈ tm'.freed, X.own b) →
    ∃ fm', xf fm = some (r, fm') ∧ Rel X (un' r) fm' tm' ∧ Q r

/-- The same when all the cells are initialised, before and after. -/
abbrev Sim0 {α : Type} (X : Ctx) (Q : α → Prop) (xf : FM α) (xt : TM α) : Prop :=
  Sim X none (fun _ => none) Q xf xt

theorem Sim.bind {un1 : α → Option (Nat × Nat)} {un2 : β → Option (Nat × Nat)} {Q1 : α → Prop} {Q2 : β → Prop} {xf : FM α}
    {xt : TM α} {ff : α → FM β} {ft : α → TM β} (h1 : Sim X un un1 Q1 xf xt) (hm : ∀ r, Mono (ft r))
    (h2 : ∀ r, Q1 r → Sim X (un1 r) un2 Q2 (ff r) (ft r)) : Sim X un un2 Q2 (xf >>= ff) (xt >>= ft) := by
  intro tm r tm2 e fm hR hown
  simp only [run_bind, Option.bind_eq_some_iff] at e
  obtain ⟨⟨r1, tm1⟩, e1, e2⟩ := e
  obtain ⟨l, hl⟩ := hm r1 _ _ _ e2
  obtain ⟨fm1, e3, hR1, hQ1⟩ := h1 tm r1 tm1 e1 fm hR (fun b hb => hown b (by rw [hl]; simp [hb]))
  obtain ⟨fm2, e4, hR2, hQ2⟩ := h2 r1 hQ1 tm1 r tm2 e2 fm1 hR1 hown
  exact ⟨fm2, by simp only [run_bind, e3, Option.bind_some, e4], hR2, hQ2⟩

theorem Sim.pure {Q : α → Prop} {r : α} (h : Q r) : Sim X un (fun _ => un) Q (Pure.pure r) (Pure.pure r) := by
  intro tm r tm' e fm hR _
  cases e
  exact ⟨fm, rfl, hR, h⟩

theorem Sim.ite {un' : α → Option (Nat × Nat)} {Q : α → Prop} {c : Prop} [Decidable c] {x y : FM α} {x' y' : TM α}
    (h1 : c → Sim X un un' Q x x') (h2 : ¬ c → Sim X un un' Q y y') :
    Sim X un un' Q (if c then x else y) (if c then x' else y') := by
  by_cases h : c
  · rw [if_pos h, if_pos h]; exact h1 h
  · rw [if_neg h, if_neg h]; exact h2 h

theorem Sim.mono {un' : α → Option (Nat × Nat)} {Q Q' : α → Prop} {x : FM α} {x' : TM α} (h : Sim X un un' Q x x')
    (hQ : ∀ r, Q r → Q' r) : Sim X un un' Q' x x' := fun tm r tm' e fm hR ho => by
  obtain ⟨fm', e', hR', hq⟩ := h tm r tm' e fm hR ho
  exact ⟨fm', e', hR', hQ r hq⟩

/-! ### The primitive operations -/

theorem sim_assert (c : Prop) [Decidable c] : Sim X un (fun _ => un) (fun _ => c) (assertF c) (assertT c) := by
  intro tm r tm' e fm hR _
  unfold assertT at e
  split at e
  · next h => cases e; exact ⟨fm, by simp [assertF, h], hR, h⟩
  · cases e

theorem sim_shr (x y : Nat) : Sim X un (fun _ => un) (fun _ => True) (fshrKey x y) (shrKey x y) := by
  intro tm r tm' e fm hR _
  unfold shrKey at e
  split at e
  · next h => cases e; exact ⟨fm, by simp [fshrKey, h], hR, trivial⟩
  · cases e

theorem sim_slot (c : TrieCfg) (x y : Nat) : Sim X un (fun _ => un) (fun _ => True) (ftrieSlot c x y) (trieSlot c x y) :=
  Sim.bind (sim_shr x y) (fun _ => Mono.pure _) fun _ _ => Sim.pure trivial

/-- The address of a cell. -/
def addr (l : Loc) : Nat := l.base + ptrSize * l.idx

theorem fget_run (h : Rel X un fm tm) {q : Nat} (hin : Inside (X.ab fm) q ptrSize) : fget q fm = some (rdP fm.mem.byte q, fm) := by
  have hacc : fm.mem.acc q ptrSize = true := hin.acc h.inv (Nat.le_refl _) (Nat.le_refl _)
  simp only [fget, onB, AllocSpec.readP_run hacc]; rfl

theorem sim_cellGet (l : Loc) : Sim0 X (fun r => r < 2 ^ sizeBit) (fget (addr l)) (cellGet l) := by
  intro tm r tm' e fm hR _
  unfold cellGet at e
  split at e
  · next h =>
    cases e
    have hin : Inside (X.ab fm) (addr l) ptrSize := (hR.mrel.obj l.base (by omega)).sub (by unfold addr; omega) (by unfold addr; arch)
    have he := hR.mrel.cell l.base l.idx h (by simp [Un])
    refine ⟨fm, ?_, hR, ?_⟩
    · rw [fget_run hR hin, ← he]; rfl
    · rw [← he]; exact rdP_lt hR.mrel.byte
  · cases e

theorem cellSet_sim (l : Loc) {v : Nat} (hv : v < 2 ^ sizeBit) {un' : Option (Nat × Nat)} 
    (hu : ∀ b' j : Nat, j < tm.csize b' → Un un b' j → Un un' b' j ∨ (b' = l.base ∧ j = l.idx)) 
    (hu' : ∀ b i, un' = some (b, i) → ∃ i', un = some (b, i')) (h : Rel X un fm tm) (hl : l.idx < tm.csize l.base) :
    ∃ fm', fset (addr l) v fm = some ((), fm') ∧
      Rel X un' fm' { tm with cell := upd tm.cell l.base (upd (tm.cell l.base) l.idx v) } := by
  have hin : Inside (X.ab fm) (addr l) ptrSize := (h.mrel.obj l.base (by omega)).sub (by unfold addr; omega) (by unfold addr; arch)
  have hw := h.write hin (tm' := { tm with cell := upd tm.cell l.base (upd (tm.cell l.base) l.idx v) }) (fun x hx => by
      have := (h.prot x hx).2.2.1 l.base (by omega)
      unfold addr; arch) (h.mrel.setCell (un' := un') hl hv hu) rfl rfl rfl rfl
      (fun b i e => by obtain ⟨i', e'⟩ := hu' b i e; exact h.unr b i' e')
  exact ⟨_, hw.1, hw.2⟩

theorem sim_cellSet (l : Loc) {v : Nat} (hv : v < 2 ^ sizeBit) :
    Sim X un (fun _ => un) (fun _ => True) (fset (addr l) v) (cellSet l v) := by
  intro tm r tm' e fm hR _
  unfold cellSet at e
  split at e
  · next h =>
    cases e
    obtain ⟨fm', e', hR'⟩ := cellSet_sim (un' := un) l hv (fun _ _ _ hx => Or.inl hx) (fun b i e => ⟨i, e⟩) hR h
    exact ⟨fm', e', hR', trivial⟩
  · cases e

/-! Fields of nodes. -/

theorem field_in (h : Rel X un fm tm) {p k : Nat} (hp : tm.heap.valid p = true) (hk : k + ptrSize ≤ nodeSize) : Inside (X.ab fm) (p + k) ptrSize :=
  (h.mrel.node p hp).sub (by omega) (by omega)

theorem field_prot (h : Rel X un fm tm) {p k : Nat} (hp : tm.heap.valid p = true) (hk : k + ptrSize ≤ nodeSize) (x : Nat)
    (hx : X.prot x) : x < p + k ∨ p + k + ptrSize ≤ x := by
  have := (h.prot x hx).2.2.2 p hp
  omega

theorem sim_getNext (p : Nat) : Sim X un (fun _ => un) (fun r => r < 2 ^ sizeBit) (fget (p + offNext)) (onN (getNext p)) := by
  intro tm r tm' e fm hR _
  simp only [onN, zoom, getNext] at e
  by_cases h : tm.heap.ok p
  · simp only [h, if_true] at e
    cases e
    refine ⟨fm, ?_, hR, ?_⟩
    · rw [fget_run hR (field_in hR h.2 (by archd)), ← hR.mrel.next p h.2]
    · rw [← hR.mrel.next p h.2]; exact rdP_lt hR.mrel.byte
  · simp [h] at e

theorem sim_getPrev (p : Nat) : Sim X un (fun _ => un) (fun r => r < 2 ^ sizeBit) (fget (p + offPrev)) (onN (getPrev p)) := by
  intro tm r tm' e fm hR _
  simp only [onN, zoom, getPrev] at e
  by_cases h : tm.heap.ok p
  · simp only [h, if_true] at e
    cases e
    refine ⟨fm, ?_, hR, ?_⟩
    · rw [fget_run hR (field_in hR h.2 (by archd)), ← hR.mrel.prev p h.2]
    · rw [← hR.mrel.prev p h.2]; exact rdP_lt hR.mrel.byte
  · simp [h] at e

theorem sim_getData (p : Nat) : Sim X un (fun _ => un) (fun r => r < 2 ^ sizeBit) (fget (p + offData)) (onN (getData p)) := by
  intro tm r tm' e fm hR _
  simp only [onN, zoom, getData] at e
  by_cases h : tm.heap.ok p
  · simp only [h, if_true] at e
    cases e
    refine ⟨fm, ?_, hR, ?_⟩
    · rw [fget_run hR (field_in hR h.2 (by archd)), ← hR.mrel.data p h.2]
    · rw [← hR.mrel.data p h.2]; exact rdP_lt hR.mrel.byte
  · simp [h] at e

theorem sim_getIndex (p : Nat) : Sim X un (fun _ => un) (fun r => r < 2 ^ sizeBit) (fget (p + offIndex)) (onN (getIndex p)) := by
  intro tm r tm' e fm hR _
  simp only [onN, zoom, getIndex] at e
  by_cases h : tm.heap.ok p
  · simp only [h, if_true] at e
    cases e
    refine ⟨fm, ?_, hR, ?_⟩
    · rw [fget_run hR (field_in hR h.2 (by archd)), ← hR.mrel.index p h.2]
    · rw [← hR.mrel.index p h.2]; exact rdP_lt hR.mrel.byte
  · simp [h] at e

theorem sim_setNext (p : Nat) {v : Nat} (hv : v < 2 ^ sizeBit) :
    Sim X un (fun _ => un) (fun _ => True) (fset (p + offNext) v) (onN (setNext p v)) := by
  intro tm r tm' e fm hR _
  simp only [onN, zoom, setNext] at e
  by_cases h : tm.heap.ok p
  · simp only [h, if_true] at e
    cases e
    have hw := hR.write (field_in hR h.2 (k := offNext) (by archd)) (field_prot hR h.2 (by archd)) (hR.mrel.setNext h.2 hv)
      rfl rfl rfl rfl hR.unr
    exact ⟨_, hw.1, hw.2, trivial⟩
  · simp [h] at e

theorem sim_setPrev (p : Nat) {v : Nat} (hv : v < 2 ^ sizeBit) :
    Sim X un (fun _ => un) (fun _ => True) (fset (p + offPrev) v) (onN (setPrev p v)) := by
  intro tm r tm' e fm hR _
  simp only [onN, zoom, setPrev] at e
  by_cases h : tm.heap.ok p
  · simp only [h, if_true] at e
    cases e
    have hw := hR.write (field_in hR h.2 (k := offPrev) (by archd)) (field_prot hR h.2 (by archd)) (hR.mrel.setPrev h.2 hv)
      rfl rfl rfl rfl hR.unr
    exact ⟨_, hw.1, hw.2, trivial⟩
  · simp [h] at e

theorem sim_setData (p : Nat) {v : Nat} (hv : v < 2 ^ sizeBit) :
    Sim X un (fun _ => un) (fun _ => True) (fset (p + offData) v) (onN (setData p v)) := by
  intro tm r tm' e fm hR _
  simp only [onN, zoom, setData] at e
  by_cases h : tm.heap.ok p
  · simp only [h, if_true] at e
    cases e
    have hw := hR.write (field_in hR h.2 (k := offData) (by archd)) (field_prot hR h.2 (by archd)) (hR.mrel.setData h.2 hv)
      rfl rfl rfl rfl hR.unr
    exact ⟨_, hw.1, hw.2, trivial⟩
  · simp [h] at e

theorem sim_setIndex (p : Nat) {v : Nat} (hv : v < 2 ^ sizeBit) :
    Sim X un (fun _ => un) (fun _ => True) (fset (p + offIndex) v) (onN (setIndex p v)) := by
  intro tm r tm' e fm hR _
  simp only [onN, zoom, setIndex] at e
  by_cases h : tm.heap.ok p
  · simp only [h, if_true] at e
    cases e
    have hw := hR.write (field_in hR h.2 (k := offIndex) (by archd)) (field_prot hR h.2 (by archd)) (hR.mrel.setIndex h.2 hv)
      rfl rfl rfl rfl hR.unr
    exact ⟨_, hw.1, hw.2, trivial⟩
  · simp [h] at e

/-! ### The calls of the allocator -/

theorem replay_append (id : Nat) (a : AllocSpec.Ab) (l : List AEvent) (e : AEvent) :
    replay id a (l ++ [e]) = event id (replay id a l) e := by simp [replay, List.foldl_append]

theorem trace_append (id : Nat) : ∀ (l : List AEvent) (a : AllocSpec.Ab) (e : AEvent),
    Trace id a l → eventOk id (replay id a l) e → Trace id a (l ++ [e]) := by
  intro l
  induction l with
  | nil => intro a e _ h; exact ⟨h, trivial⟩
  | cons x l ih => intro a e h1 h2; exact ⟨h1.1, ih _ e h1.2 h2⟩

omit [Arch] in
theorem gots_append : ∀ (l l' : List AEvent), gots (l ++ l') = gots l ++ gots l' := by
  intro l
  induction l with
  | nil => intro l'; rfl
  | cons x l ih => intro l'; cases x <;> simp [gots, ih]

omit [Arch] in
theorem gaves_append : ∀ (l l' : List AEvent), gaves (l ++ l') = gaves l ++ gaves l' := by
  intro l
  induction l with
  | nil => intro l'; rfl
  | cons x l ih => intro l'; cases x <;> simp [gaves, ih]

variable {a : AllocSpec.Ab} {id : Nat} {P : AllocSpec.Pool}

theorem Inside.got {p n q : Nat} {seg : Option Nat} (hP : a.pool id = some P) (h : Inside a p n) :
    Inside (event id a (.got q seg)) p n := by
  rw [event_got hP]
  rcases h with ⟨b, m, h3, h4, h5⟩ | ⟨i, Q, r, h3, h4, h5, h6⟩
  · exact Or.inl ⟨b, m, h3, h4, h5⟩
  · by_cases e : i = id
    · subst e
      rw [hP] at h3; cases h3
      exact Or.inr ⟨i, _, r, upd_same .., by simp [h4], h5, h6⟩
    · exact Or.inr ⟨i, Q, r, by simp only [upd_ne e, h3], h4, h5, h6⟩

theorem user_got {x q : Nat} {seg : Option Nat} (hP : a.pool id = some P) (h : a.UserByte x) :
    (event id a (.got q seg)).UserByte x := by
  have : Inside a x 1 := by
    rcases h with ⟨b, m, h3, h4, h5⟩ | ⟨i, Q, r, h3, h4, h5, h6⟩
    · exact Or.inl ⟨b, m, h3, h4, h5⟩
    · exact Or.inr ⟨i, Q, r, h3, h4, h5, h6⟩
  exact (this.got hP).user (Nat.le_refl _) (by omega)

theorem Inside.gave {p n q : Nat} (hP : a.pool id = some P) (h : Inside a p n) (hn : 0 < n)
    (hd : p + n ≤ q ∨ q + P.bs ≤ p) : Inside (event id a (.gave q)) p n := by
  rw [event_gave hP]
  rcases h with ⟨b, m, h3, h4, h5⟩ | ⟨i, Q, r, h3, h4, h5, h6⟩
  · exact Or.inl ⟨b, m, h3, h4, h5⟩
  · by_cases e : i = id
    · subst e
      rw [hP] at h3; cases h3
      have : r ≠ q := by omega
      exact Or.inr ⟨i, _, r, upd_same .., (List.mem_erase_of_ne this).2 h4, h5, h6⟩
    · exact Or.inr ⟨i, Q, r, by simp only [upd_ne e, h3], h4, h5, h6⟩

theorem user_gave {x q : Nat} (hP : a.pool id = some P) (h : a.UserByte x) (hd : x < q ∨ q + P.bs ≤ x) :
    (event id a (.gave q)).UserByte x := by
  have : Inside a x 1 := by
    rcases h with ⟨b, m, h3, h4, h5⟩ | ⟨i, Q, r, h3, h4, h5, h6⟩
    · exact Or.inl ⟨b, m, h3, h4, h5⟩
    · exact Or.inr ⟨i, Q, r, h3, h4, h5, h6⟩
  exact (this.gave hP (by omega) (by omega)).user (Nat.le_refl _) (by omega)

omit [Arch] in
theorem Inside.apart {p n q m : Nat} (h : Inside a p n) (ha : a.Apart q m) (hn : 0 < n) (hm : 0 < m) :
    p + n ≤ q ∨ q + m ≤ p := by
  by_contra hc
  exact ha (max p q) (by omega) (by omega) (h.user (by omega) (by omega))

omit [Arch] in
theorem upd_upd {β : Type} (f : Nat → β) (i : Nat) (x y : β) : upd (upd f i x) i y = upd f i y := by
  funext j
  by_cases e : j = i
  · subst e; simp
  · simp [upd_ne e]

theorem eventOk_got (hP : a.pool id = some P) {p : Nat} {seg : Option Nat} (h : eventOk id a (.got p seg)) :
    p ≠ 0 ∧ p % P.al = 0 ∧ a.Apart p P.bs := by
  obtain ⟨P', p', new, hP', e, h1, h2, h3, _⟩ := h
  rw [hP] at hP'; cases hP'
  cases e
  exact ⟨h1, h2, h3⟩

theorem Rel.got (hX : CtxOk X) (h : Rel X none fm tm) {p : Nat} {rest F' : List Nat} {m' : AMem} {t' : Alloc}
    {ms' : List (Nat × (Nat → Nat))} {seg : Option Nat} (hP : (X.ab fm).pool X.id = some P) (hbs : P.bs = X.bs)
    (hal : P.al = X.al) (hown : ∀ b, X.own b → tm.csize b ≠ 0 → b ∈ P.used ∧ tm.csize b = X.c.treeMax)
    (hi : AInv X.slack ⟨m', upd X.als X.id (some t')⟩ (event X.id (X.ab fm) (.got p seg)))
    (hok : eventOk X.id (X.ab fm) (.got p seg))
    (hp : PoolInv X.slack m' t' { P with used := p :: P.used, ever := p :: P.ever, segs := if seg.isSome then seg.getD 0 :: P.segs else P.segs } F')
    (hs : tm.supply = p :: rest) (hr : rest = future X F' ms') (hb : ∀ x, m'.byte x < 256)
    (hu : ∀ x, (X.ab fm).UserByte x → m'.byte x = fm.mem.byte x)
    (hf : MallocsOk X.slack X.u (event X.id (X.ab fm) (.got p seg)) (segSize X.bs X.al) ms')
    (hm : (∀ m ∈ ms', m.1 ∈ X.mal) ∧ ∀ b, seg = some b → b ∈ X.mal) :
    Rel X (some (p, 0)) ⟨m', t', ms', fm.log ++ [.got p seg]⟩
      { tm with csize := upd tm.csize p X.c.treeMax, supply := rest } := by
  obtain ⟨hp0, hpa, hap⟩ := eventOk_got hP hok
  have hbs8 : ptrSize ≤ P.bs := hp.bs8
  have hbe : P.bs = ptrSize * X.c.treeMax := hbs.trans hX.bs
  have hab : X.ab ⟨m', t', ms', fm.log ++ [.got p seg]⟩ = event X.id (X.ab fm) (.got p seg) := replay_append ..
  have hsep : ∀ b : Nat, tm.csize b ≠ 0 → b + (ptrSize * tm.csize b + X.ext b) ≤ p ∨ p + P.bs ≤ b := fun b hb =>
    (h.mrel.obj b hb).apart hap (by arch) (by arch)
  have hnsep : ∀ q : Nat, tm.heap.valid q = true → q + nodeSize ≤ p ∨ p + P.bs ≤ q := fun q hq =>
    (h.mrel.node q hq).apart hap (by arch) (by arch)
  have hc0 : tm.csize p = 0 := by
    by_contra hc
    have := hsep p hc
    arch
  have hx0 : X.ext p = 0 := by
    by_contra hc
    exact h.extb p hc hc0
  have hnew : Inside (event X.id (X.ab fm) (.got p seg)) p P.bs := by
    rw [event_got hP]
    exact Or.inr ⟨X.id, _, p, upd_same .., by simp, by omega, by simp⟩
  have hcs : ∀ b : Nat, upd tm.csize p X.c.treeMax b ≠ 0 → b = p ∨ (b ≠ p ∧ tm.csize b ≠ 0) := fun b hb => by
    by_cases e : b = p
    · exact Or.inl e
    · rw [upd_ne e] at hb; exact Or.inr ⟨e, hb⟩
  have hrd : ∀ q n k : Nat, Inside (X.ab fm) q n → k + ptrSize ≤ n → rdP m'.byte (q + k) = rdP fm.mem.byte (q + k) := fun q n k hq hk =>
    rdP_congr fun x h1 h2 => hu x (hq.user (by omega) (by omega))
  exact
    { inv := by rw [hab]; exact hi
      pool := by
        refine ⟨{ P with used := p :: P.used, ever := p :: P.ever, segs := if seg.isSome then seg.getD 0 :: P.segs else P.segs }, F',
          by rw [hab, event_got hP]; exact upd_same .., hbs, hal, hp, fun _ => hr, fun b hb hc => ?_⟩
        simp only at hc ⊢
        rcases hcs b hc with rfl | ⟨h1, h2⟩
        · exact ⟨by simp, by simp⟩
        · rw [upd_ne h1]; exact ⟨List.mem_cons_of_mem _ (hown b hb h2).1, (hown b hb h2).2⟩
      fresh := by rw [hab]; exact hf
      mrel :=
        { byte := hb
          obj := fun b hc => by
            rw [hab]
            simp only at hc ⊢
            rcases hcs b hc with rfl | ⟨h1, h2⟩
            · rw [upd_same, hx0, Nat.add_zero, ← hbe]; exact hnew
            · rw [upd_ne h1]; exact (h.mrel.obj b h2).got hP
          osep := fun b b' hb hb' hne => by
            simp only at hb hb' ⊢
            rcases hcs b hb with rfl | ⟨h1, h2⟩
            · rcases hcs b' hb' with rfl | ⟨h3, h4⟩
              · exact absurd rfl hne
              · rw [upd_same, upd_ne h3, hx0]; have := hsep b' h4; omega
            · rcases hcs b' hb' with rfl | ⟨h3, h4⟩
              · rw [upd_same, upd_ne h1, hx0]; have := hsep b h2; omega
              · rw [upd_ne h1, upd_ne h3]; exact h.mrel.osep b b' h2 h4 hne
          node := fun q hq => by rw [hab]; exact (h.mrel.node q hq).got hP
          nsep := h.mrel.nsep
          onsep := fun b q hc hq => by
            simp only at hc hq ⊢
            rcases hcs b hc with rfl | ⟨h1, h2⟩
            · rw [upd_same, hx0]; have := hnsep q hq; omega
            · rw [upd_ne h1]; exact h.mrel.onsep b q h2 hq
          cell := fun b i hc hun => by
            simp only at hc ⊢
            by_cases e : b = p
            · exact absurd ⟨e, Nat.zero_le _⟩ hun
            · rw [upd_ne e] at hc
              rw [hrd b _ (ptrSize * i) (h.mrel.obj b (by omega)) (by arch)]
              exact h.mrel.cell b i hc (by simp [Un])
          next := fun q hq => by rw [hrd q _ _ (h.mrel.node q hq) (by archd)]; exact h.mrel.next q hq
          prev := fun q hq => by rw [hrd q _ _ (h.mrel.node q hq) (by archd)]; exact h.mrel.prev q hq
          data := fun q hq => by rw [hrd q _ _ (h.mrel.node q hq) (by archd)]; exact h.mrel.data q hq
          index := fun q hq => by rw [hrd q _ _ (h.mrel.node q hq) (by archd)]; exact h.mrel.index q hq }
      prot := fun x hx => by
        obtain ⟨g1, g2, g3, g4⟩ := h.prot x hx
        refine ⟨by rw [hab]; exact user_got hP g1, (hu x g1).trans g2, fun b hc => ?_, g4⟩
        simp only at hc ⊢
        rcases hcs b hc with rfl | ⟨h1, h2⟩
        · rw [upd_same]
          by_contra hn
          exact hap x (by omega) (by omega) g1
        · rw [upd_ne h1]; exact g3 b h2
      unr := fun b i e => by cases e; exact upd_same ..
      extb := fun b hb => by
        simp only
        by_cases e : b = p
        · subst e; exact absurd hx0 hb
        · rw [upd_ne e]; exact h.extb b hb
      trace := trace_append _ _ _ _ h.trace hok
      sup := by
        simp only [gots_append, gots, List.append_assoc, List.singleton_append]
        rw [h.sup, hs]
      frd := by simp only [gaves_append, gaves, List.append_nil]; exact h.frd
      mal := ⟨hm.1, fun q b hb => by
        simp only [List.mem_append, List.mem_singleton, AEvent.got.injEq] at hb
        rcases hb with hb | ⟨_, rfl⟩
        · exact h.mal.2 q b hb
        · exact hm.2 b rfl⟩ }

theorem region_got (hP : a.pool id = some P) {p b n : Nat} {seg : Option Nat} :
    (event id a (.got p seg)).Region b n → a.Region b n ∨ (seg = some b ∧ n = segSize P.bs P.al) := by
  rw [event_got hP]
  rintro (h | ⟨i, Q, h1, h2, h3⟩)
  · exact Or.inl (Or.inl h)
  · by_cases e : i = id
    · subst e
      simp only [upd_same, Option.some.injEq] at h1
      subst h1
      cases seg with
      | none => exact Or.inl (Or.inr ⟨i, P, hP, h2, h3⟩)
      | some b0 =>
        simp only [Option.isSome_some, if_true, Option.getD_some, List.mem_cons] at h2
        rcases h2 with rfl | h2
        · exact Or.inr ⟨rfl, h3⟩
        · exact Or.inl (Or.inr ⟨i, P, hP, h2, h3⟩)
    · simp only [upd_ne e] at h1
      exact Or.inl (Or.inr ⟨i, Q, h1, h2, h3⟩)

theorem region_gave (hP : a.pool id = some P) {p b n : Nat} : (event id a (.gave p)).Region b n → a.Region b n := by
  rw [event_gave hP]
  rintro (h | ⟨i, Q, h1, h2, h3⟩)
  · exact Or.inl h
  · by_cases e : i = id
    · subst e
      simp only [upd_same, Option.some.injEq] at h1
      subst h1
      exact Or.inr ⟨i, P, hP, h2, h3⟩
    · simp only [upd_ne e] at h1
      exact Or.inr ⟨i, Q, h1, h2, h3⟩

theorem sim_blockAlloc (hX : CtxOk X) (hins : X.ins) :
    Sim X none (fun b => some (b, 0)) (fun b => b + 1 < 2 ^ sizeBit) (fblockAlloc X.slack) (blockAlloc X.c.treeMax) := by
  intro tm r tm' e fm h _
  obtain ⟨P, F, hP, hbs, hal, hp, hsup, hown⟩ := h.pool
  have hsup := hsup hins
  have hst : (X.st fm).al X.id = some fm.al := upd_same ..
  have hbs8 := hp.bs8
  unfold blockAlloc at e
  have hq : ∀ {fm' : FMem} {b : Nat}, Rel X (some (b, 0)) fm' tm' → tm'.csize b ≠ 0 → b + 1 < 2 ^ sizeBit := fun {fm' b} h' hc => by
    have := (h'.mrel.obj b hc).lt h'.inv
    arch
  cases F with
  | cons p F =>
    obtain ⟨hfb, t', e1, hp', hi', hok⟩ := alloc_old (s := X.st fm) h.inv hP hst hp
    have hs : tm.supply = p :: future X F fm.mallocs := hsup
    simp only [hs, Option.some.injEq, Prod.mk.injEq] at e
    obtain ⟨rfl, rfl⟩ := e
    simp only [Ctx.st, upd_upd] at hi'
    have hR := h.got hX (rest := future X F fm.mallocs) (ms' := fm.mallocs) hP hbs hal hown hi' hok hp' hs rfl h.mrel.byte (fun x _ => rfl)
      ⟨fun m hm => by
        obtain ⟨g1, g2, g3⟩ := h.fresh.1 m hm
        refine ⟨g1, ⟨g2.1, g2.2.1, fun n hr => ?_, fun b n hr => ?_⟩, g3⟩
        · rcases region_got hP hr with hr | ⟨e, _⟩
          · exact g2.2.2.1 n hr
          · cases e
        · rcases region_got hP hr with hr | ⟨e, _⟩
          · exact g2.2.2.2 b n hr
          · exact absurd e (by simp), h.fresh.2⟩ ⟨h.mal.1, fun b hb => by cases hb⟩
    refine ⟨_, ?_, hR, hq hR ?_⟩
    · unfold fblockAlloc
      rw [if_pos hfb]
      simp only [Ctx.st] at e1
      rw [e1]; rfl
    · have := hX.bs; simp only [upd_same]; arch
  | nil =>
    have hms : fm.mallocs ≠ [] := fun hn => by
      rw [hn] at hsup
      simp only [future, List.flatMap_nil, List.append_nil] at hsup
      rw [hsup] at e; cases e
    obtain ⟨⟨base, content⟩, ms, hms⟩ := List.exists_cons_of_ne_nil hms
    have hfr := h.fresh
    rw [hms] at hfr
    obtain ⟨hfr1, hfr2⟩ := hfr
    obtain ⟨hub, hf, hc⟩ := hfr1 _ (List.mem_cons_self ..)
    simp only at hub hf hc
    obtain ⟨hfb, t', m', p, F', hsb, e1, hp', hi', hok, hu⟩ := alloc_new (content := content) (s := X.st fm) h.inv hP hst hp
      (by rw [hbs, hal]; exact hf) (by rw [hbs, hal]; exact hX.room base hub)
    have hs : tm.supply = p :: future X F' ms := by
      rw [hsup, hms, future, List.nil_append, List.flatMap_cons]
      simp only
      rw [← hbs, ← hal, hsb]
      simp only [future, List.cons_append, hbs, hal]
    simp only [hs, Option.some.injEq, Prod.mk.injEq] at e
    obtain ⟨rfl, rfl⟩ := e
    simp only [Ctx.st, upd_upd] at hi'
    have hR := h.got hX (rest := future X F' ms) (ms' := ms) (seg := some base) hP hbs hal hown hi' hok hp' hs rfl
      (Bytes.alloc _ _ hc _ _ h.mrel.byte _ _ e1) hu
      ⟨fun m hm => by
        obtain ⟨g1, g2, g3⟩ := hfr1 m (List.mem_cons_of_mem _ hm)
        have g4 := (List.pairwise_cons.1 hfr2).1 m hm
        simp only at g4
        refine ⟨g1, ⟨g2.1, g2.2.1, fun n hr => ?_, fun b n hr => ?_⟩, g3⟩
        · rcases region_got hP hr with hr | ⟨e, _⟩
          · exact g2.2.2.1 n hr
          · cases e
            have := AllocSpec.segSize_ge X.bs X.al
            omega
        · rcases region_got hP hr with hr | ⟨e, rfl⟩
          · exact g2.2.2.2 b n hr
          · cases e
            rw [hbs, hal]
            omega, (List.pairwise_cons.1 hfr2).2⟩
      ⟨fun m hm => h.mal.1 m (by rw [hms]; exact List.mem_cons_of_mem _ hm), fun b hb => by
        cases hb; exact h.mal.1 (base, content) (by rw [hms]; exact List.mem_cons_self ..)⟩
    refine ⟨_, ?_, hR, hq hR ?_⟩
    · unfold fblockAlloc
      rw [if_neg (by simp [hfb])]
      simp only [Ctx.st] at e1
      rw [hms]
      simp only
      rw [e1]; rfl
    · have := hX.bs; simp only [upd_same]; arch

theorem sim_blockFree (hX : CtxOk X) (b : Nat) : Sim0 X (fun _ => True) (fblockFree b) (blockFree b) := by
  intro tm r tm' e fm h hfr
  unfold blockFree at e
  split at e
  · cases e
  next hc =>
  cases e
  have hob : X.own b := hfr b (by simp)
  obtain ⟨P, F, hP, hbs, hal, hp, hsup, hown⟩ := h.pool
  obtain ⟨hu, hcs⟩ := hown b hob hc
  have hst : (X.st fm).al X.id = some fm.al := upd_same ..
  have hbe : P.bs = ptrSize * X.c.treeMax := hbs.trans hX.bs
  have hbs8 := hp.bs8
  have hx0 := hX.ext b hob
  obtain ⟨t', e1, hp', hi', hok⟩ := free_run (s := X.st fm) h.inv hP hst hp hu
  simp only [Ctx.st, upd_upd] at e1 hi' hp'
  have hab : X.ab ⟨{ fm.mem with byte := wrP fm.mem.byte b fm.al.freeBlock }, t', fm.mallocs, fm.log ++ [.gave b]⟩ =
    event X.id (X.ab fm) (.gave b) := replay_append ..
  have hcs' : ∀ b' : Nat, upd tm.csize b 0 b' ≠ 0 → b' ≠ b ∧ tm.csize b' ≠ 0 := fun b' hb => by
    by_cases e : b' = b
    · subst e; simp at hb
    · rw [upd_ne e] at hb; exact ⟨e, hb⟩
  have hsep : ∀ b' : Nat, b' ≠ b → tm.csize b' ≠ 0 → b' + (ptrSize * tm.csize b' + X.ext b') ≤ b ∨ b + P.bs ≤ b' := fun b' hne hb => by
    have := h.mrel.osep b' b hb hc hne
    arch
  have hnsep : ∀ q : Nat, tm.heap.valid q = true → q + nodeSize ≤ b ∨ b + P.bs ≤ q := fun q hq => by
    have := h.mrel.onsep b q hc hq
    arch
  have hw : ∀ q k : Nat, tm.heap.valid q = true → k + ptrSize ≤ nodeSize → rdP (wrP fm.mem.byte b fm.al.freeBlock) (q + k) = rdP fm.mem.byte (q + k) := fun q k hq hk => by
    have := hnsep q hq
    exact rdP_wrP_out (by omega)
  refine ⟨⟨{ fm.mem with byte := wrP fm.mem.byte b fm.al.freeBlock }, t', fm.mallocs, fm.log ++ [.gave b]⟩, ?_, ?_, trivial⟩
  · simp only [fblockFree, e1]; rfl
  exact
    { inv := by rw [hab]; exact hi'
      pool := by
        refine ⟨{ P with used := P.used.erase b }, b :: F, by rw [hab, event_gave hP]; exact upd_same .., hbs, hal, hp',
          fun hi => absurd hob (hX.ins hi b), fun b' hb' hc' => ?_⟩
        simp only at hc' ⊢
        obtain ⟨h1, h2⟩ := hcs' b' hc'
        rw [upd_ne h1]
        exact ⟨(List.mem_erase_of_ne h1).2 (hown b' hb' h2).1, (hown b' hb' h2).2⟩
      fresh := by
        rw [hab]
        refine ⟨fun m hm => ?_, h.fresh.2⟩
        obtain ⟨g1, g2, g3⟩ := h.fresh.1 m hm
        exact ⟨g1, ⟨g2.1, g2.2.1, fun n hr => g2.2.2.1 n (region_gave hP hr), fun b n hr => g2.2.2.2 b n (region_gave hP hr)⟩, g3⟩
      mrel :=
        { byte := wrP_lt h.mrel.byte
          obj := fun b' hc' => by
            rw [hab]
            simp only at hc' ⊢
            obtain ⟨h1, h2⟩ := hcs' b' hc'
            rw [upd_ne h1]
            exact (h.mrel.obj b' h2).gave hP (by arch) (hsep b' h1 h2)
          osep := fun b' b'' hb hb' hne => by
            simp only at hb hb' ⊢
            obtain ⟨h1, h2⟩ := hcs' b' hb
            obtain ⟨h3, h4⟩ := hcs' b'' hb'
            rw [upd_ne h1, upd_ne h3]; exact h.mrel.osep b' b'' h2 h4 hne
          node := fun q hq => by rw [hab]; exact (h.mrel.node q hq).gave hP (by arch) (hnsep q hq)
          nsep := h.mrel.nsep
          onsep := fun b' q hc' hq => by
            simp only at hc' hq ⊢
            obtain ⟨h1, h2⟩ := hcs' b' hc'
            rw [upd_ne h1]; exact h.mrel.onsep b' q h2 hq
          cell := fun b' i hc' hun => by
            simp only at hc' ⊢
            obtain ⟨h1, h2⟩ := hcs' b' (by omega)
            rw [upd_ne h1] at hc'
            have := hsep b' h1 h2
            rw [rdP_wrP_out (by arch)]
            exact h.mrel.cell b' i hc' hun
          next := fun q hq => by simp only; rw [hw q _ hq (by archd)]; exact h.mrel.next q hq
          prev := fun q hq => by simp only; rw [hw q _ hq (by archd)]; exact h.mrel.prev q hq
          data := fun q hq => by simp only; rw [hw q _ hq (by archd)]; exact h.mrel.data q hq
          index := fun q hq => by simp only; rw [hw q _ hq (by archd)]; exact h.mrel.index q hq }
      prot := fun x hx => by
        obtain ⟨g1, g2, g3, g4⟩ := h.prot x hx
        have hxb := g3 b hc
        refine ⟨by rw [hab]; exact user_gave hP g1 (by arch), ?_, fun b' hc' => ?_, g4⟩
        · simp only
          rw [wrP_out (by arch)]; exact g2
        · simp only at hc' ⊢
          obtain ⟨h1, h2⟩ := hcs' b' hc'
          rw [upd_ne h1]; exact g3 b' h2
      unr := fun b' i e => by cases e
      extb := fun b' hb' => by
        simp only
        by_cases e : b' = b
        · subst e; exact absurd hx0 hb'
        · rw [upd_ne e]; exact h.extb b' hb'
      trace := trace_append _ _ _ _ h.trace hok
      sup := by simp only [gots_append, gots, List.append_nil]; exact h.sup
      frd := by simp only [gaves_append, gaves]; rw [h.frd]
      mal := ⟨h.mal.1, fun q b' hb => by
        simp only [List.mem_append, List.mem_singleton, reduceCtorEq, or_false] at hb
        exact h.mal.2 q b' hb⟩ }

/-- The clearing of a new block. -/
theorem sim_clear_new (b : Nat) : ∀ k i, i + k = X.c.treeMax →
    Sim X (some (b, i)) (fun _ => none) (fun _ => True) (fclearCells b i k) (clearCells b i k) := by
  intro k
  induction k with
  | zero =>
    intro i hi tm r tm' e fm h _
    cases e
    refine ⟨fm, rfl, ?_, trivial⟩
    have hb := h.unr b i rfl
    exact { h with
      mrel := { h.mrel with
        cell := fun b' j hj _ => h.mrel.cell b' j hj fun hu => by
          simp only [Un] at hu
          obtain ⟨rfl, hu⟩ := hu
          omega }
      unr := fun b' i' e => by cases e }
  | succ k ih =>
    intro i hi
    unfold fclearCells clearCells
    refine Sim.bind (un1 := fun _ => some (b, i + 1)) (Q1 := fun _ => True) ?_ (fun _ => Mono.clear _ _ _) fun _ _ => ih (i + 1) (by omega)
    intro tm r tm' e fm hR _
    unfold cellSet at e
    split at e
    · next h =>
      cases e
      obtain ⟨fm', e', hR'⟩ := cellSet_sim (un' := some (b, i + 1)) ⟨b, i⟩ (v := 0) (by archd) (fun b' j hj hx => by
        simp only [Un] at hx ⊢
        obtain ⟨rfl, hx⟩ := hx
        by_cases e : j = i
        · exact Or.inr ⟨rfl, e⟩
        · exact Or.inl ⟨rfl, by omega⟩) (fun b' i' e => by cases e; exact ⟨_, rfl⟩) hR h
      exact ⟨fm', e', hR', trivial⟩
    · cases e

theorem sim_clear (b : Nat) : ∀ k i, Sim0 X (fun _ => True) (fclearCells b i k) (clearCells b i k) := by
  intro k
  induction k with
  | zero => intro i; exact Sim.pure trivial
  | succ k ih =>
    intro i
    unfold fclearCells clearCells
    exact Sim.bind (sim_cellSet ⟨b, i⟩ (by archd)) (fun _ => Mono.clear _ _ _) fun _ _ => ih (i + 1)

/-! ### The functions of the lists -/

omit [Arch] in
theorem onN_bind (x : HM α) (f : α → HM β) : onN (x >>= f) = onN x >>= fun r => onN (f r) := by
  funext tm
  simp only [run_bind, onN, zoom, bind, StateT.bind]
  cases x tm.heap with
  | none => rfl
  | some r => rfl

omit [Arch] in
theorem onN_pure (r : α) : onN (Pure.pure r : HM α) = Pure.pure r := rfl

omit [Arch] in
theorem onN_ite {c : Prop} [Decidable c] (x y : HM α) : onN (if c then x else y) = if c then onN x else onN y := by
  split <;> rfl

/-- The proofs of `Mono` for the part that follows. -/
macro "monos" : tactic => `(tactic| (intros; repeat' (first
  | exact Mono.expand _ _ _ _ _ _ _ | exact Mono.pick _ _ _ | exact Mono.reduce _ _ _ | exact Mono.scan _ _ _ _ _
  | exact Mono.bucketInsert _ _ _ _ _ _ | exact Mono.bucketRemove _ _ _ _ _ _ _ | exact Mono.bucketLoop _ _ _ _ | mono1)))

theorem sim_insertFirst {node : Nat} (hn : node < 2 ^ sizeBit) :
    Sim X un (fun _ => un) (fun r => r < 2 ^ sizeBit) (flistInsertFirst node) (onN (listInsertFirst node)) := by
  unfold flistInsertFirst listInsertFirst
  simp only [onN_bind, onN_pure]
  exact Sim.bind (sim_setPrev node hn) (by monos) fun _ _ => Sim.bind (sim_setNext node (by archd)) (by monos) fun _ _ => Sim.pure hn

theorem sim_insertTail {head node : Nat} (hn : node < 2 ^ sizeBit) :
    Sim X un (fun _ => un) (fun _ => True) (flistInsertTailNotEmpty head node) (onN (listInsertTailNotEmpty head node)) := by
  unfold flistInsertTailNotEmpty listInsertTailNotEmpty
  simp only [onN_bind, onN_pure]
  exact Sim.bind (sim_getPrev head) (by monos) fun hp hhp => Sim.bind (sim_setPrev node hhp) (by monos) fun _ _ =>
    Sim.bind (sim_setPrev head hn) (by monos) fun _ _ => Sim.bind (sim_setNext node (by archd)) (by monos) fun _ _ =>
    Sim.bind (sim_getPrev node) (by monos) fun np _ => sim_setNext np hn

theorem sim_removeExisting {list node : Nat} (hl : list < 2 ^ sizeBit) :
    Sim X un (fun _ => un) (fun r => r.1 < 2 ^ sizeBit ∧ r.2 < 2 ^ sizeBit) (flistRemoveExisting list node) (onN (listRemoveExisting list node)) := by
  unfold flistRemoveExisting listRemoveExisting
  simp only [onN_bind, onN_pure, onN_ite]
  refine Sim.bind (sim_getNext node) (by monos) fun nn hnn => ?_
  have hd : ∀ l : Nat, l < 2 ^ sizeBit → Sim X un (fun _ => un) (fun r : Nat × Nat => r.1 < 2 ^ sizeBit ∧ r.2 < 2 ^ sizeBit)
      (fget (node + offData) >>= fun d => Pure.pure (l, d)) (onN (getData node) >>= fun d => Pure.pure (l, d)) := fun l hl =>
    Sim.bind (sim_getData node) (by monos) fun d hd => Sim.pure ⟨hl, hd⟩
  have ht : Sim X un (fun _ => un) (fun r : Nat × Nat => r.1 < 2 ^ sizeBit ∧ r.2 < 2 ^ sizeBit)
      (if listHead list = node then do
          let list' ← fget (node + offNext)
          let d ← fget (node + offData)
          Pure.pure (list', d)
        else do
          let np ← fget (node + offPrev)
          let nn ← fget (node + offNext)
          fset (np + offNext) nn
          let list' ← Pure.pure list
          let d ← fget (node + offData)
          Pure.pure (list', d))
      (if listHead list = node then do
          let r ← onN (getNext node)
          let r_1 ← onN (getData node)
          Pure.pure (r, r_1)
        else do
          let r ← onN (getPrev node)
          let r_1 ← onN (getNext node)
          onN (setNext r r_1)
          let r ← Pure.pure list
          let r_2 ← onN (getData node)
          Pure.pure (r, r_2)) := by
    refine Sim.ite (fun _ => ?_) (fun _ => ?_)
    · exact Sim.bind (sim_getNext node) (by monos) fun l hl => hd l hl
    · exact Sim.bind (sim_getPrev node) (by monos) fun np _ => Sim.bind (sim_getNext node) (by monos) fun nn hnn =>
        Sim.bind (sim_setNext np hnn) (by monos) fun _ _ => Sim.bind (Sim.pure (Q := fun r => r < 2 ^ sizeBit) hl) (by monos) fun l hl => hd l hl
  exact Sim.ite (fun _ => Sim.bind (sim_getPrev node) (by monos) fun np hnp => Sim.bind (sim_setPrev _ hnp) (by monos) fun _ _ => ht)
      (fun _ => Sim.bind (sim_getPrev node) (by monos) fun np hnp => Sim.bind (sim_setPrev _ hnp) (by monos) fun _ _ => ht)

/-! ### The functions of the trie -/

theorem Sim0.adm {γ : Type} (X : Ctx) (un : Option (Nat × Nat)) (un' : γ → Option (Nat × Nat)) (Q : γ → Prop) (xf : FM γ) :
    Lean.Order.admissible (fun m : TM γ => Sim X un un' Q xf m) :=
  ST.adm fun (tm : TMem) (r : γ) (tm' : TMem) => ∀ fm, Rel X un fm tm → (∀ b ∈ tm'.freed, X.own b) →
    ∃ fm', xf fm = some (r, fm') ∧ Rel X (un' r) fm' tm' ∧ Q r

theorem sim_init (t : Trie) : Sim0 X (fun _ => True) (ftrieInit X.c t) (trieInit X.c t) := by
  unfold ftrieInit trieInit
  exact Sim.bind (sim_clear _ _ _) (by monos) fun _ _ => Sim.pure trivial

theorem sim_expand (hX : CtxOk X) (hins : X.ins) {node insert key : Nat} (hn : node < 2 ^ sizeBit) (hi : insert < 2 ^ sizeBit) :
    ∀ nc shift l, Sim0 X (fun _ => True) (ftrieExpand X.slack X.c nc shift (addr l) node insert key)
      (trieExpand X.c nc shift l node insert key) := by
  have key : ∀ nc shift l, Mono (trieExpand X.c nc shift l node insert key) ∧
      Sim0 X (fun _ => True) (ftrieExpand X.slack X.c nc shift (addr l) node insert key) (trieExpand X.c nc shift l node insert key) := by
    refine trieExpand.fixpoint_induct X.c node insert key (fun f => ∀ nc shift l, Mono (f nc shift l) ∧
      Sim0 X (fun _ => True) (ftrieExpand X.slack X.c nc shift (addr l) node insert key) (f nc shift l)) ?_ ?_
    · exact adm_fun fun (_ : Nat) => adm_fun fun (_ : Nat) => adm_fun fun (_ : Loc) =>
        Lean.Order.admissible_and _ _ Mono.adm' (Sim0.adm _ _ _ _ _)
    · intro f ih nc shift l
      have hm : ∀ nc shift l, Mono (f nc shift l) := fun nc shift l => (ih nc shift l).1
      refine ⟨by repeat' (first | exact hm _ _ _ | mono1), ?_⟩
      rw [ftrieExpand]
      refine Sim.bind (sim_blockAlloc hX hins) (by intros; repeat' (first | exact hm _ _ _ | mono1)) fun tree ht => ?_
      refine Sim.bind (sim_cellSet l ht) (by intros; repeat' (first | exact hm _ _ _ | mono1)) fun _ _ => ?_
      refine Sim.bind (sim_clear_new tree _ 0 (by omega)) (by intros; repeat' (first | exact hm _ _ _ | mono1)) fun _ _ => ?_
      refine Sim.bind (sim_getIndex node) (by intros; repeat' (first | exact hm _ _ _ | mono1)) fun idx _ => ?_
      refine Sim.bind (sim_slot _ _ _) (by intros; repeat' (first | exact hm _ _ _ | mono1)) fun i _ => ?_
      refine Sim.bind (sim_slot _ _ _) (by intros; repeat' (first | exact hm _ _ _ | mono1)) fun j _ => ?_
      refine Sim.ite (fun _ => ?_) (fun _ => (ih _ _ _).2)
      refine Sim.bind (sim_cellSet ⟨tree, i⟩ hn) (by monos) fun _ _ => ?_
      refine Sim.bind (sim_insertFirst hi) (by monos) fun l hl => ?_
      exact Sim.bind (sim_cellSet ⟨tree, j⟩ hl) (by monos) fun _ _ => Sim.pure trivial
  exact fun nc shift l => (key nc shift l).2

theorem sim_bucketInsert (hX : CtxOk X) (hins : X.ins) {nc insert key : Nat} (hi : insert < 2 ^ sizeBit) :
    ∀ shift l, Sim0 X (fun _ => True) (ftrieBucketInsert X.slack X.c nc shift (addr l) insert key)
      (trieBucketInsert X.c nc shift l insert key) := by
  have key : ∀ shift l, Mono (trieBucketInsert X.c nc shift l insert key) ∧
      Sim0 X (fun _ => True) (ftrieBucketInsert X.slack X.c nc shift (addr l) insert key) (trieBucketInsert X.c nc shift l insert key) := by
    refine trieBucketInsert.fixpoint_induct X.c nc insert key (fun f => ∀ shift l, Mono (f shift l) ∧
      Sim0 X (fun _ => True) (ftrieBucketInsert X.slack X.c nc shift (addr l) insert key) (f shift l)) ?_ ?_
    · exact adm_fun fun (_ : Nat) => adm_fun fun (_ : Loc) =>
        Lean.Order.admissible_and _ _ Mono.adm' (Sim0.adm _ _ _ _ _)
    · intro f ih shift l
      have hm : ∀ shift l, Mono (f shift l) := fun shift l => (ih shift l).1
      refine ⟨by repeat' (first | exact hm _ _ | exact Mono.expand _ _ _ _ _ _ _ | mono1), ?_⟩
      rw [ftrieBucketInsert]
      refine Sim.bind (sim_cellGet l) (by intros; repeat' (first | exact hm _ _ | exact Mono.expand _ _ _ _ _ _ _ | mono1)) fun ptr hp => ?_
      refine Sim.ite (fun _ => ?_) (fun _ => Sim.ite (fun _ => ?_) (fun _ => ?_))
      · refine Sim.bind (sim_insertFirst hi) (by monos) fun x hl => ?_
        exact Sim.bind (sim_cellSet l hl) (by monos) fun _ _ => Sim.pure trivial
      · exact Sim.bind (sim_slot _ _ _) (by intros; exact hm _ _) fun i _ => (ih _ _).2
      · refine Sim.bind (sim_getIndex ptr) (by monos) fun idx _ => ?_
        refine Sim.ite (fun _ => ?_) (fun _ => sim_expand hX hins hp hi _ _ _)
        exact Sim.bind (sim_insertTail hi) (by monos) fun _ _ => Sim.pure trivial
  exact fun shift l => (key shift l).2

theorem sim_insert (hX : CtxOk X) (hins : X.ins) (t : Trie) {node data key : Nat} (hn : node < 2 ^ sizeBit) (hd : data < 2 ^ sizeBit)
    (hk : key < 2 ^ sizeBit) : Sim0 X (fun _ => True) (ftrieInsert X.slack X.c t node data key) (trieInsert X.c t node data key) := by
  unfold ftrieInsert trieInsert
  refine Sim.bind (sim_shr _ _) (by monos) fun b _ => ?_
  refine Sim.bind (sim_assert _) (by monos) fun _ _ => ?_
  refine Sim.bind (sim_setData node hd) (by monos) fun _ _ => ?_
  refine Sim.bind (sim_setIndex node hk) (by monos) fun _ _ => ?_
  exact Sim.bind (sim_bucketInsert hX hins hn _ ⟨t.base, b⟩) (by monos) fun _ _ => Sim.pure trivial

theorem sim_scan (tree : Nat) : ∀ k i count last, Sim0 X (fun _ => True) (ftrieScan tree i count last k) (trieScan tree i count last k) := by
  intro k
  induction k with
  | zero => exact fun _ _ _ => Sim.pure trivial
  | succ k ih =>
    intro i count last
    unfold ftrieScan trieScan
    refine Sim.bind (sim_cellGet ⟨tree, i⟩) (by monos) fun p _ => ?_
    exact Sim.ite (fun _ => Sim.ite (fun _ => Sim.pure trivial) fun _ => Sim.ite (fun _ => Sim.pure trivial) fun _ => ih _ _ _)
      fun _ => ih _ _ _

theorem sim_reduce (hX : CtxOk X) : ∀ back nc, Sim0 X (fun _ => True) (ftrieReduce X.c nc (back.map addr)) (trieReduce X.c nc back) := by
  intro back
  induction back with
  | nil => exact fun nc => Sim.pure trivial
  | cons l back ih =>
    intro nc
    unfold trieReduce
    simp only [List.map_cons]
    unfold ftrieReduce
    refine Sim.bind (sim_cellGet l) ?_ fun p hp => ?_
    · intro p
      refine Mono.bind (Mono.scan _ _ _ _ _) fun r => ?_
      cases r with
      | none => exact Mono.pure _
      | some r => monos
    refine Sim.bind (sim_scan _ _ _ _ _) ?_ fun r _ => ?_
    · intro r
      cases r with
      | none => exact Mono.pure _
      | some r => monos
    cases r with
    | none => exact Sim.pure trivial
    | some r =>
      refine Sim.bind (sim_assert _) (by monos) fun _ _ => ?_
      refine Sim.bind (sim_cellGet ⟨_, _⟩) (by monos) fun q hq => ?_
      refine Sim.bind (sim_cellSet l hq) (by monos) fun _ _ => ?_
      exact Sim.bind (sim_blockFree hX _) (by monos) fun _ _ => ih _

theorem sim_pick {node remove key : Nat} (hn : node < 2 ^ sizeBit) (hr : remove < 2 ^ sizeBit) :
    Sim0 X (fun r => r < 2 ^ sizeBit) (ftriePick node remove key) (triePick node remove key) := by
  unfold ftriePick triePick
  refine Sim.ite (fun _ => ?_) fun _ => Sim.pure hr
  exact Sim.bind (sim_getIndex node) (by monos) fun idx _ => Sim.ite (fun _ => Sim.pure (by archd)) fun _ => Sim.pure hn

theorem sim_bucketRemove (hX : CtxOk X) {nc remove key : Nat} (hr : remove < 2 ^ sizeBit) :
    ∀ shift l back, Sim0 X (fun _ => True) (ftrieBucketRemoveExisting X.c nc shift (addr l) remove key (back.map addr))
      (trieBucketRemoveExisting X.c nc shift l remove key back) := by
  have key : ∀ shift l back, Mono (trieBucketRemoveExisting X.c nc shift l remove key back) ∧
      Sim0 X (fun _ => True) (ftrieBucketRemoveExisting X.c nc shift (addr l) remove key (back.map addr))
        (trieBucketRemoveExisting X.c nc shift l remove key back) := by
    refine trieBucketRemoveExisting.fixpoint_induct X.c nc remove key (fun f => ∀ shift l back, Mono (f shift l back) ∧
      Sim0 X (fun _ => True) (ftrieBucketRemoveExisting X.c nc shift (addr l) remove key (back.map addr)) (f shift l back)) ?_ ?_
    · exact adm_fun fun (_ : Nat) => adm_fun fun (_ : Loc) => adm_fun fun (_ : List Loc) =>
        Lean.Order.admissible_and _ _ Mono.adm' (Sim0.adm _ _ _ _ _)
    · intro f ih shift l back
      have hm : ∀ shift l back, Mono (f shift l back) := fun shift l back => (ih shift l back).1
      refine ⟨by repeat' (first | exact hm _ _ _ | exact Mono.pick _ _ _ | exact Mono.reduce _ _ _ | mono1), ?_⟩
      rw [ftrieBucketRemoveExisting]
      refine Sim.bind (sim_cellGet l) (by intros; repeat' (first | exact hm _ _ _ | exact Mono.pick _ _ _ | exact Mono.reduce _ _ _ | mono1)) fun ptr hp => ?_
      refine Sim.ite (fun _ => Sim.pure trivial) (fun _ => Sim.ite (fun _ => ?_) (fun _ => ?_))
      · rw [List.length_map]
        refine Sim.bind (sim_assert _) (by intros; repeat' (first | exact hm _ _ _ | mono1)) fun _ _ => ?_
        exact Sim.bind (sim_slot _ _ _) (by intros; exact hm _ _ _) fun i _ => (ih _ _ _).2
      · refine Sim.bind (sim_pick hp hr) (by monos) fun rm hrm => ?_
        refine Sim.ite (fun _ => Sim.pure trivial) fun _ => ?_
        refine Sim.bind (sim_cellGet l) (by monos) fun x hx => ?_
        refine Sim.bind (sim_removeExisting hx) (by monos) fun x hx => ?_
        refine Sim.bind (sim_cellSet l hx.1) (by monos) fun _ _ => ?_
        refine Sim.bind (sim_cellGet l) (by monos) fun now _ => ?_
        refine Sim.ite (fun _ => Sim.pure trivial) fun _ => ?_
        exact Sim.bind (sim_reduce hX _ _) (by monos) fun _ _ => Sim.pure trivial
  exact fun shift l back => (key shift l back).2

theorem sim_remove (hX : CtxOk X) (t : Trie) (key : Nat) :
    Sim0 X (fun _ => True) (ftrieRemove X.c t key) (trieRemove X.c t key) := by
  unfold ftrieRemove trieRemove
  refine Sim.bind (sim_shr _ _) (by monos) fun b _ => ?_
  refine Sim.bind (sim_assert _) (by monos) fun _ _ => ?_
  refine Sim.bind (sim_bucketRemove hX (by archd) _ ⟨t.base, b⟩ []) (by monos) fun r _ => ?_
  refine Sim.ite (fun _ => Sim.pure trivial) fun _ => ?_
  exact Sim.bind (sim_getData _) (by monos) fun _ _ => Sim.pure trivial

theorem sim_removeExistingT (hX : CtxOk X) (t : Trie) {node : Nat} (hn : node < 2 ^ sizeBit) :
    Sim0 X (fun _ => True) (ftrieRemoveExisting X.c t node) (trieRemoveExisting X.c t node) := by
  unfold ftrieRemoveExisting trieRemoveExisting
  refine Sim.bind (sim_getIndex _) (by monos) fun key _ => ?_
  refine Sim.bind (sim_shr _ _) (by monos) fun b _ => ?_
  refine Sim.bind (sim_assert _) (by monos) fun _ _ => ?_
  refine Sim.bind (sim_bucketRemove hX hn _ ⟨t.base, b⟩ []) (by monos) fun r _ => ?_
  refine Sim.bind (sim_assert _) (by monos) fun _ _ => ?_
  exact Sim.bind (sim_getData _) (by monos) fun _ _ => Sim.pure trivial

theorem sim_bucketLoop {key : Nat} : ∀ ptr shift, Sim0 X (fun _ => True) (ftrieBucketLoop X.c ptr shift key)
    (trieBucketLoop X.c ptr shift key) := by
  have key : ∀ ptr shift, Mono (trieBucketLoop X.c ptr shift key) ∧
      Sim0 X (fun _ => True) (ftrieBucketLoop X.c ptr shift key) (trieBucketLoop X.c ptr shift key) := by
    refine trieBucketLoop.fixpoint_induct X.c key (fun f => ∀ ptr shift, Mono (f ptr shift) ∧
      Sim0 X (fun _ => True) (ftrieBucketLoop X.c ptr shift key) (f ptr shift)) ?_ ?_
    · exact adm_fun fun (_ : Nat) => adm_fun fun (_ : Nat) =>
        Lean.Order.admissible_and _ _ Mono.adm' (Sim0.adm _ _ _ _ _)
    · intro f ih ptr shift
      have hm : ∀ ptr shift, Mono (f ptr shift) := fun ptr shift => (ih ptr shift).1
      refine ⟨by repeat' (first | exact hm _ _ | mono1), ?_⟩
      rw [ftrieBucketLoop]
      refine Sim.ite (fun _ => Sim.pure trivial) (fun _ => Sim.ite (fun _ => ?_) (fun _ => ?_))
      · refine Sim.bind (sim_slot _ _ _) (by intros; repeat' (first | exact hm _ _ | mono1)) fun i _ => ?_
        exact Sim.bind (sim_cellGet ⟨_, _⟩) (by intros; exact hm _ _) fun p _ => (ih _ _).2
      · refine Sim.bind (sim_getIndex ptr) (by monos) fun idx _ => ?_
        exact Sim.ite (fun _ => Sim.pure trivial) fun _ => Sim.pure trivial
  exact fun ptr shift => (key ptr shift).2

theorem Mono.bucket (c : TrieCfg) (t : Trie) (key : Nat) : Mono (trieBucket c t key) := by
  unfold trieBucket
  monos

theorem sim_bucket (t : Trie) (key : Nat) : Sim0 X (fun _ => True) (ftrieBucket X.c t key) (trieBucket X.c t key) := by
  unfold ftrieBucket trieBucket
  refine Sim.bind (sim_shr _ _) (by monos) fun b _ => ?_
  refine Sim.bind (sim_assert _) (by monos) fun _ _ => ?_
  exact Sim.bind (sim_cellGet ⟨t.base, b⟩) (by monos) fun _ _ => sim_bucketLoop _ _

theorem sim_search (t : Trie) (key : Nat) : Sim0 X (fun _ => True) (ftrieSearch X.c t key) (trieSearch X.c t key) := by
  unfold ftrieSearch trieSearch
  refine Sim.bind (sim_bucket _ _) (by monos) fun i _ => ?_
  exact Sim.ite (fun _ => Sim.pure trivial) fun _ => (sim_getData _).mono fun _ _ => trivial

theorem sim_walkLoop : ∀ i acc, Sim0 X (fun _ => True) (fwalkLoop i acc) (onN (HashSpec.walkLoop i acc)) := by
  have key : ∀ i acc, Sim0 X (fun _ => True) (fwalkLoop i acc) (onN (HashSpec.walkLoop i acc)) := by
    have adm : ∀ xf, Lean.Order.admissible (fun m : HM (List Elem) => Sim0 X (fun _ => True) xf (onN m)) := fun xf => by
      have : (fun m : HM (List Elem) => Sim0 X (fun _ => True) xf (onN m)) = (fun m : HM (List Elem) => ∀ h r h', m h = some (r, h') →
          ∀ tm : TMem, tm.heap = h → ∀ fm, Rel X none fm tm → (∀ b ∈ tm.freed, X.own b) →
          ∃ fm', xf fm = some (r, fm') ∧ Rel X none fm' { tm with heap := h' } ∧ True) := by
        funext m
        apply propext
        constructor
        · intro hs h r h' e tm ht
          subst ht
          exact hs tm r { tm with heap := h' } (by simp only [onN, zoom, e])
        · intro hs tm r tm' e
          simp only [onN, zoom] at e
          split at e
          · cases e
          next r' h' e' =>
          cases e
          exact hs _ _ _ e' tm rfl
      rw [this]
      exact ST.adm _
    refine HashSpec.walkLoop.fixpoint_induct (fun f => ∀ i acc, Sim0 X (fun _ => True) (fwalkLoop i acc) (onN (f i acc))) ?_ ?_
    · exact adm_fun fun (_ : Nat) => adm_fun fun (_ : List Elem) => adm _
    · intro f ih i acc
      rw [fwalkLoop]
      simp only [onN_bind, onN_pure, onN_ite]
      refine Sim.ite (fun _ => Sim.pure trivial) fun _ => ?_
      refine Sim.bind (sim_getData _) (by monos) fun d _ => ?_
      refine Sim.bind (sim_getIndex _) (by monos) fun x _ => ?_
      exact Sim.bind (sim_getNext _) (by monos) fun n _ => ih _ _
  exact key

theorem sim_walkBucket (t : Trie) (key : Nat) : Sim0 X (fun _ => True) (fwalkBucket X.c t key) (TrieSpec.walkBucket X.c t key) := by
  unfold fwalkBucket TrieSpec.walkBucket
  exact Sim.bind (sim_bucket _ _) (by monos) fun i _ => sim_walkLoop _ _

end FlatSpec
end Tommy
