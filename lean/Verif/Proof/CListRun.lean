import Verif.Spec.CList
import Verif.Proof.CArrFun
import Verif.Proof.CList
/-! The lists in the memory of bytes: the execution of the text. -/
set_option autoImplicit false
set_option linter.unusedSectionVars false
namespace Tommy.CLs
open CListSpec CArr C Src
open HashFlat hiding Fresh
open CArraySpec (Ok InReg)
variable [Arch] (ext : Ext)

/-! ### The text, as reads and writes -/

@[csem] theorem run_list_init (s : CTy) (list : Nat) : run ext "tommy_list_init" [⟨.ptr s, list⟩] = (do bset list 0; return ⟨.void, 0⟩) := by
  rw [run_fun rfl (show funs _ = some f_tommy_list_init from rfl)]
  unfold f_tommy_list_init
  simp only [Stmt.list]
  csimp

@[csem] theorem run_list_tail (s : CTy) (list : Nat) : run ext "tommy_list_tail" [⟨.ptr s, list⟩] = (do
    let h ← bget list
    if h = 0 then return ⟨tNode, 0⟩
    let v ← bget (h + nodPrev)
    return ⟨tNode, v⟩) := by
  rw [run_fun rfl (show funs _ = some f_tommy_list_tail from rfl)]
  unfold f_tommy_list_tail
  simp only [Stmt.list]
  csimp

@[csem] theorem run_list_empty (s : CTy) (list : Nat) : run ext "tommy_list_empty" [⟨.ptr s, list⟩] = (do
    let h ← bget list
    return ⟨.s32, if h = 0 then 1 else 0⟩) := by
  rw [run_fun rfl (show funs _ = some f_tommy_list_empty from rfl)]
  unfold f_tommy_list_empty
  simp only [Stmt.list]
  csimp
  funext w
  refine get_at fun x h1 => ?_
  rw [show C.bool (decide (x = 0)) = ⟨.s32, if decide (x = 0) = true then 1 else 0⟩ from rfl, conv_same]
  simp

@[csem] theorem run_list_insert_head_not_empty (s t : CTy) (list node : Nat) :
    run ext "tommy_list_insert_head_not_empty" [⟨.ptr s, list⟩, ⟨.ptr t, node⟩] = (do
      let h ← bget list
      let v ← bget (h + nodPrev)
      bset (node + nodPrev) v
      bset (h + nodPrev) node
      bset (node + nodNext) h
      bset list node
      return ⟨.void, 0⟩) := by
  rw [run_fun rfl (show funs _ = some f_tommy_list_insert_head_not_empty from rfl)]
  unfold f_tommy_list_insert_head_not_empty
  simp only [Stmt.list]
  csimp

@[csem] theorem run_list_insert_head (s t u : CTy) (list node data : Nat) :
    run ext "tommy_list_insert_head" [⟨.ptr s, list⟩, ⟨.ptr t, node⟩, ⟨.ptr u, data⟩] = (do
      let h ← bget list
      if h = 0 then
        blistInsertFirst list node
        bset (node + nodData) data
        return ⟨.void, 0⟩
      else
        let h ← bget list
        let v ← bget (h + nodPrev)
        bset (node + nodPrev) v
        bset (h + nodPrev) node
        bset (node + nodNext) h
        bset list node
        bset (node + nodData) data
        return ⟨.void, 0⟩) := by
  rw [run_fun rfl (show funs _ = some f_tommy_list_insert_head from rfl)]
  unfold f_tommy_list_insert_head
  simp only [Stmt.list]
  csimp

/-! ### The links -/

/-- A word of the memory. -/
abbrev R (w : AMem) (p : Nat) : Nat := rdN w.byte p ptrSize

/-- The fields `next`, with `e` in the last one. -/
def Nx (w : AMem) (e : Nat) : List Nat → Prop
  | [] => True
  | p :: l => R w p = l.head?.getD e ∧ Nx w e l

/-- The fields `prev`, with `q` in the first one. -/
def Pv (w : AMem) (q : Nat) : List Nat → Prop
  | [] => True
  | p :: l => R w (p + ptrSize) = q ∧ Pv w p l

variable {w w' : AMem}

theorem nx_append {e : Nat} {r : List Nat} : ∀ {l : List Nat}, Nx w e (l ++ r) ↔ Nx w (r.head?.getD e) l ∧ Nx w e r
  | [] => by simp [Nx]
  | p :: l => by
    rw [List.cons_append, Nx, Nx, nx_append, and_assoc]
    cases l <;> simp

theorem pv_append {r : List Nat} : ∀ {l : List Nat} {q : Nat}, Pv w q (l ++ r) ↔ Pv w q l ∧ Pv w (l.getLast?.getD q) r
  | [], q => by simp [Pv]
  | p :: l, q => by
    rw [List.cons_append, Pv, Pv, pv_append, and_assoc]
    cases l <;> simp [List.getLast?_cons]

theorem Nx.congr {e : Nat} : ∀ {l : List Nat}, Nx w e l → (∀ p ∈ l, R w' p = R w p) → Nx w' e l
  | [], _, _ => trivial
  | p :: l, h, h' => ⟨(h' p (by simp)).trans h.1, Nx.congr h.2 fun q hq => h' q (by simp [hq])⟩

theorem Pv.congr : ∀ {l : List Nat} {q : Nat}, Pv w q l → (∀ p ∈ l, R w' (p + ptrSize) = R w (p + ptrSize)) → Pv w' q l
  | [], _, _, _ => trivial
  | p :: l, _, h, h' => ⟨(h' p (by simp)).trans h.1, Pv.congr h.2 fun q hq => h' q (by simp [hq])⟩

theorem nx_get {e : Nat} : ∀ {l : List Nat}, Nx w e l → ∀ i, (h : i < l.length) → R w l[i] = (l[i + 1]?).getD e
  | [], _, _, h => by simp at h
  | p :: l, hn, 0, _ => by
    have := hn.1
    cases l <;> simpa using this
  | p :: l, hn, i + 1, h => by
    have := nx_get hn.2 i (by simpa using h)
    simpa using this

theorem pv_get : ∀ {l : List Nat} {q : Nat}, Pv w q l → ∀ i, (h : i + 1 < l.length) → R w (l[i + 1] + ptrSize) = l[i]
  | [], _, _, _, h => by simp at h
  | [p], _, _, _, h => by simp at h
  | p :: p' :: l, q, hn, 0, _ => hn.2.1
  | p :: p' :: l, q, hn, i + 1, h => by
    have := pv_get hn.2 i (by simpa using h)
    simpa using this

/-! ### The loops -/

/-- tommylist.h:319-322. -/
def countWhile : Stmt := .while (.var "i")
  (.block (.list [
    .expr (.assignOp .add (.var "count") (.num 1)),
    .expr (.assign (.var "i") (.arrow (.var "i") "next"))]))

theorem exec_count {s : CTy} {t : Nat} {ms : List (Nat × (Nat → Nat))} {log : List BEvent} : ∀ (l : List Nat) (p c : Nat), p = l.head?.getD 0 → Nx w 0 l →
    (∀ p ∈ l, p ≠ 0 ∧ InReg w p ptrSize) → c + l.length < 2 ^ sizeBit →
    exec structs ext (run ext) countWhile [("i", tNode, [some p]), ("count", .usize, [some c]), ("list", .ptr s, [some t])] ⟨w, ms, log⟩ =
      some ((.normal, [("i", tNode, [some 0]), ("count", .usize, [some (c + l.length)]), ("list", .ptr s, [some t])]), ⟨w, ms, log⟩) := by
  obtain ⟨W, hW⟩ : ∃ W, W = countWhile := ⟨_, rfl⟩
  rw [← hW]
  unfold countWhile at hW
  simp only [Stmt.list] at hW
  intro l
  induction l with
  | nil =>
    intro p c h _ _ _
    simp at h
    subst h
    rw [exec_while ext _ hW]
    csimp
    rfl
  | cons x xs ih =>
    intro p c h hn hl hc
    simp at h
    subst h
    simp only [List.length_cons] at hc
    obtain ⟨h0, h1⟩ := hl p (by simp)
    have e := ih (R w p) (c + 1) hn.1 hn.2 (fun q hq => hl q (by simp [hq])) (by omega)
    rw [exec_while ext _ hW]
    csimp [h0]
    rw [show Tommy.sizeT (c + 1) = c + 1 from Nat.mod_eq_of_lt (by omega)]
    rw [get_step (p := p + nodNext) (v := R w p) h1 rfl]
    refine e.trans ?_
    rw [Nat.add_assoc, Nat.add_comm 1]

theorem run_list_count {s : CTy} {t : Nat} {l : List Nat} {ms : List (Nat × (Nat → Nat))} {log : List BEvent} (ht : InReg w t ptrSize)
    (hh : R w t = l.head?.getD 0) (hn : Nx w 0 l) (hl : ∀ p ∈ l, p ≠ 0 ∧ InReg w p ptrSize) (hc : l.length < 2 ^ sizeBit) :
    run ext "tommy_list_count" [⟨.ptr s, t⟩] ⟨w, ms, log⟩ = some (⟨.usize, l.length⟩, ⟨w, ms, log⟩) := by
  have e := fun s => exec_count ext (s := s) (t := t) (ms := ms) (log := log) l (R w t) 0 hh hn hl (by omega)
  rw [run_fun rfl (show funs _ = some f_tommy_list_count from rfl)]
  unfold f_tommy_list_count
  unfold countWhile at e
  simp only [Stmt.list] at e ⊢
  generalize Stmt.while _ _ = W at e ⊢
  csimp
  rw [get_step (v := R w t) ht rfl]
  try csimp
  refine (bind_step (e _)).trans ?_
  csimp
  simp

/-- `free()` called once for each one. -/
theorem callAll_free {byte : Nat → Nat} {ms : List (Nat × (Nat → Nat))} (ds : List Nat) : ∀ (live : Nat → Option Nat) (log : List BEvent), ds.Nodup →
    (∀ d ∈ ds, (live d).isSome) →
    callAll bfree ds ⟨⟨byte, live⟩, ms, log⟩ = some ((), ⟨⟨byte, fun b => if b ∈ ds then none else live b⟩, ms, log ++ ds.map .gave⟩) := by
  induction ds with
  | nil => intro live log _ _; simp [callAll]
  | cons d ds ih =>
    intro live log hn hl
    obtain ⟨h1, h2⟩ := List.nodup_cons.1 hn
    simp only [callAll, run_bind, bfree]
    rw [if_pos (hl d (by simp))]
    simp only [Option.bind_some]
    rw [ih (upd live d none) _ h2 fun x hx => by
      unfold upd; rw [if_neg (show ¬ x = d from fun e => h1 (e ▸ hx))]; exact hl x (by simp [hx])]
    have e : (fun b => if b ∈ ds then none else upd live d none b) = fun b => if b ∈ d :: ds then none else live b := by
      funext b
      by_cases hb : b = d
      · subst hb; simp [upd]
      · simp only [upd, List.mem_cons, hb, false_or, if_false]
    rw [e, List.map_cons, List.append_assoc]
    rfl

/-- tommylist.h:358-363. -/
def foreachWhile : Stmt := .while (.var "node")
  (.block (.list [
    .declInit (.ptr .void) "data" (.arrow (.var "node") "data"),
    .expr (.assign (.var "node") (.arrow (.var "node") "next")),
    .expr (.call "func" (.cons (.var "data") .nil))]))

/-- tommylist.h:372-377. -/
def foreachArgWhile : Stmt := .while (.var "node")
  (.block (.list [
    .declInit (.ptr .void) "data" (.arrow (.var "node") "data"),
    .expr (.assign (.var "node") (.arrow (.var "node") "next")),
    .expr (.call "func" (.cons (.var "arg") (.cons (.var "data") .nil)))]))

variable {func : Nat → BM Unit} {f arg : Nat}

theorem exec_foreach (hf : ∀ d, ext f [pVoid d] = (do func d; return ⟨.void, 0⟩)) {s : CTy} {t : Nat} (m : AMem) :
    ∀ (l : List Nat) (p : Nat) (b : BMem), p = l.head?.getD 0 → Nx m 0 l → (∀ p ∈ l, p ≠ 0) →
    (∀ as x bs, l = as ++ x :: bs → ∀ b1, callAll func (as.map fun x => R m (x + datOff)) b = some ((), b1) → Same m b1.mem (x :: bs)) →
    exec structs ext (run ext) foreachWhile [("node", tNode, [some p]), ("list", .ptr s, [some t]), ("func", .ptr .fn, [some f])] b =
      (callAll func (l.map fun x => R m (x + datOff)) b).map fun r =>
        ((.normal, [("node", tNode, [some 0]), ("list", .ptr s, [some t]), ("func", .ptr .fn, [some f])]), r.2) := by
  obtain ⟨W, hW⟩ : ∃ W, W = foreachWhile := ⟨_, rfl⟩
  rw [← hW]
  unfold foreachWhile at hW
  simp only [Stmt.list] at hW
  intro l
  induction l with
  | nil =>
    intro p b h _ _ _
    simp at h
    subst h
    rw [exec_while ext _ hW]
    csimp
    rfl
  | cons x xs ih =>
    intro p b h hn hl hfn
    simp at h
    subst h
    have h0 := hl p (by simp)
    obtain ⟨h1, h2, h3⟩ := hfn [] p xs rfl b rfl p (by simp)
    obtain ⟨w, ms, log⟩ := b
    unfold CListSpec.nodeSize at h1
    rw [exec_while ext _ hW]
    csimp [h0]
    rw [get_step (p := p + nodData) (v := R m (p + datOff)) (h1.sub (by unfold nodData; omega) (by unfold nodData; omega)) h3]
    try csimp
    rw [get_step (p := p + nodNext) (v := R m p) (h1.sub (by unfold nodNext; omega) (by unfold nodNext; omega)) h2]
    have hf' : ext f [⟨.ptr .void, R m (p + datOff)⟩] = (do func (R m (p + datOff)); return ⟨.void, 0⟩) := hf _
    csimp [hf']
    simp only [List.map_cons, callAll, run_bind]
    cases hc : func (R m (p + datOff)) ⟨w, ms, log⟩ with
    | none => rfl
    | some r =>
      obtain ⟨⟨⟩, b2⟩ := r
      exact ih (R m p) b2 hn.1 hn.2 (fun q hq => hl q (by simp [hq]))
        fun as x bs e b1 hb => hfn (p :: as) x bs (by rw [e]; rfl) b1 (by simpa only [List.map_cons, callAll, run_bind, hc, Option.bind_some] using hb)

theorem run_list_foreach (hf : ∀ d, ext f [pVoid d] = (do func d; return ⟨.void, 0⟩)) {s : CTy} {t : Nat} {l : List Nat}
    {ms : List (Nat × (Nat → Nat))} {log : List BEvent} (ht : InReg w t ptrSize) (hh : R w t = l.head?.getD 0) (hn : Nx w 0 l)
    (hl : ∀ p ∈ l, p ≠ 0 ∧ InReg w p CListSpec.nodeSize)
    (hfn : ∀ as x bs, l = as ++ x :: bs → ∀ b1, callAll func (as.map fun x => R w (x + datOff)) ⟨w, ms, log⟩ = some ((), b1) → Same w b1.mem (x :: bs)) :
    run ext "tommy_list_foreach" [⟨.ptr s, t⟩, pFunc f] ⟨w, ms, log⟩ =
      (callAll func (l.map fun x => R w (x + datOff)) ⟨w, ms, log⟩).map fun r => (⟨.void, 0⟩, r.2) := by
  have e := fun s => exec_foreach ext hf (s := s) (t := t) w l (R w t) ⟨w, ms, log⟩ hh hn (fun p hp => (hl p hp).1) hfn
  rw [run_fun rfl (show funs _ = some f_tommy_list_foreach from rfl)]
  unfold f_tommy_list_foreach
  unfold foreachWhile at e
  simp only [Stmt.list] at e ⊢
  generalize Stmt.while _ _ = W at e ⊢
  csimp [pFunc, pVoid]
  rw [get_step (v := R w t) ht rfl]
  try csimp
  refine (congrArg (fun o => Option.bind o _) (e _)).trans ?_
  cases callAll func (l.map fun x => R w (x + datOff)) ⟨w, ms, log⟩ <;> rfl

theorem exec_foreach_arg (hf : ∀ d, ext f [pVoid arg, pVoid d] = (do func d; return ⟨.void, 0⟩)) {s : CTy} {t : Nat} (m : AMem) :
    ∀ (l : List Nat) (p : Nat) (b : BMem), p = l.head?.getD 0 → Nx m 0 l → (∀ p ∈ l, p ≠ 0) →
    (∀ as x bs, l = as ++ x :: bs → ∀ b1, callAll func (as.map fun x => R m (x + datOff)) b = some ((), b1) → Same m b1.mem (x :: bs)) →
    exec structs ext (run ext) foreachArgWhile
        [("node", tNode, [some p]), ("list", .ptr s, [some t]), ("func", .ptr .fn, [some f]), ("arg", .ptr .void, [some arg])] b =
      (callAll func (l.map fun x => R m (x + datOff)) b).map fun r =>
        ((.normal, [("node", tNode, [some 0]), ("list", .ptr s, [some t]), ("func", .ptr .fn, [some f]), ("arg", .ptr .void, [some arg])]), r.2) := by
  obtain ⟨W, hW⟩ : ∃ W, W = foreachArgWhile := ⟨_, rfl⟩
  rw [← hW]
  unfold foreachArgWhile at hW
  simp only [Stmt.list] at hW
  intro l
  induction l with
  | nil =>
    intro p b h _ _ _
    simp at h
    subst h
    rw [exec_while ext _ hW]
    csimp
    rfl
  | cons x xs ih =>
    intro p b h hn hl hfn
    simp at h
    subst h
    have h0 := hl p (by simp)
    obtain ⟨h1, h2, h3⟩ := hfn [] p xs rfl b rfl p (by simp)
    obtain ⟨w, ms, log⟩ := b
    unfold CListSpec.nodeSize at h1
    rw [exec_while ext _ hW]
    csimp [h0]
    rw [get_step (p := p + nodData) (v := R m (p + datOff)) (h1.sub (by unfold nodData; omega) (by unfold nodData; omega)) h3]
    try csimp
    rw [get_step (p := p + nodNext) (v := R m p) (h1.sub (by unfold nodNext; omega) (by unfold nodNext; omega)) h2]
    have hf' : ext f [⟨.ptr .void, arg⟩, ⟨.ptr .void, R m (p + datOff)⟩] = (do func (R m (p + datOff)); return ⟨.void, 0⟩) := hf _
    csimp [hf']
    simp only [List.map_cons, callAll, run_bind]
    cases hc : func (R m (p + datOff)) ⟨w, ms, log⟩ with
    | none => rfl
    | some r =>
      obtain ⟨⟨⟩, b2⟩ := r
      exact ih (R m p) b2 hn.1 hn.2 (fun q hq => hl q (by simp [hq]))
        fun as x bs e b1 hb => hfn (p :: as) x bs (by rw [e]; rfl) b1 (by simpa only [List.map_cons, callAll, run_bind, hc, Option.bind_some] using hb)

theorem run_list_foreach_arg (hf : ∀ d, ext f [pVoid arg, pVoid d] = (do func d; return ⟨.void, 0⟩)) {s : CTy} {t : Nat} {l : List Nat}
    {ms : List (Nat × (Nat → Nat))} {log : List BEvent} (ht : InReg w t ptrSize) (hh : R w t = l.head?.getD 0) (hn : Nx w 0 l)
    (hl : ∀ p ∈ l, p ≠ 0 ∧ InReg w p CListSpec.nodeSize)
    (hfn : ∀ as x bs, l = as ++ x :: bs → ∀ b1, callAll func (as.map fun x => R w (x + datOff)) ⟨w, ms, log⟩ = some ((), b1) → Same w b1.mem (x :: bs)) :
    run ext "tommy_list_foreach_arg" [⟨.ptr s, t⟩, pFunc f, pVoid arg] ⟨w, ms, log⟩ =
      (callAll func (l.map fun x => R w (x + datOff)) ⟨w, ms, log⟩).map fun r => (⟨.void, 0⟩, r.2) := by
  have e := fun s => exec_foreach_arg ext hf (s := s) (t := t) w l (R w t) ⟨w, ms, log⟩ hh hn (fun p hp => (hl p hp).1) hfn
  rw [run_fun rfl (show funs _ = some f_tommy_list_foreach_arg from rfl)]
  unfold f_tommy_list_foreach_arg
  unfold foreachArgWhile at e
  simp only [Stmt.list] at e ⊢
  generalize Stmt.while _ _ = W at e ⊢
  csimp [pFunc, pVoid]
  rw [get_step (v := R w t) ht rfl]
  try csimp
  refine (congrArg (fun o => Option.bind o _) (e _)).trans ?_
  cases callAll func (l.map fun x => R w (x + datOff)) ⟨w, ms, log⟩ <;> rfl

end Tommy.CLs
