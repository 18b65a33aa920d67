import Verif.Proof.CTreeSys
import Verif.Proof.TreeShape
import Verif.Proof.CLoop
/-! tommytree.c: foreach. -/
set_option autoImplicit false
set_option linter.unusedSectionVars false
set_option linter.unusedSimpArgs false
set_option linter.unusedVariables false
namespace Tommy.CTreeSpec

open C Src HashFlat
open AllocSpec (rdN_congr acc_of)
open TreeP (T Rep)
variable [Arch]

theorem callAll_append (func : Nat → BM Unit) (l l' : List Nat) (w : BMem) :
    callAll func (l ++ l') w = (callAll func l w).bind fun r => callAll func l' r.2 := by
  induction l generalizing w with
  | nil => rfl
  | cons d l ih =>
    simp only [List.cons_append, callAll, run_bind]
    cases func d w with
    | none => rfl
    | some x => simp only [Option.bind_some, ih]

/-- `free()` called once for each one. -/
theorem callAll_free {byte : Nat → Nat} {ms : List (Nat × (Nat → Nat))} (ds : List Nat) : ∀ (live : Nat → Option Nat) (log : List BEvent), ds.Nodup →
    (∀ d ∈ ds, (live d).isSome) →
    callAll bfree ds ⟨⟨byte, live⟩, ms, log⟩ = some ((), ⟨⟨byte, fun b => if b ∈ ds then none else live b⟩, ms, log ++ ds.map .gave⟩) := by
  induction ds with
  | nil => intro live log _ _; simp [callAll]
  | cons d ds ih =>
    intro live log hn hl
    obtain ⟨h1, h2⟩ := List.nodup_cons.1 hn
    simp only [callAll, run_bind, bfree]
    rw [if_pos (hl d (by simp))]
    simp only [Option.bind_some]
    rw [ih (upd live d none) _ h2 fun x hx => by
      unfold upd; rw [if_neg (show ¬ x = d from fun e => h1 (e ▸ hx))]; exact hl x (by simp [hx])]
    have e : (fun b => if b ∈ ds then none else upd live d none b) = fun b => if b ∈ d :: ds then none else live b := by
      funext b
      by_cases hb : b = d
      · subst hb; simp [upd]
      · simp only [upd, List.mem_cons, hb, false_or, if_false]
    rw [e, List.map_cons, List.append_assoc]
    rfl

theorem same_get {w : AMem} {W : BMem} {xs : List Nat} {x k : Nat} (h : Same w W.mem xs) (hx : x ∈ xs) (hk : k + ptrSize ≤ nodeSize) :
    bget (x + k) W = some (rd w (x + k), W) := by
  obtain ⟨⟨b, n, h1, h2, h3⟩, h4⟩ := h x hx
  have acc : W.mem.acc (x + k) ptrSize = true := acc_of h1 (by omega) (by omega)
  unfold bget bgetN
  rw [if_pos acc, rdN_congr (g := w.byte) fun y g1 g2 => h4 y (by omega) (by omega)]

/-- The text of a foreach, with the recursive calls. -/
def Foreach (run : Nat → BM Val) (func : Nat → BM Unit) : Prop :=
  ∀ p, run p = if p = 0 then pure ⟨.void, 0⟩ else do
    let l ← bget (p + nodPrev)
    let _ ← run l
    let r ← bget (p + nodNext)
    let d ← bget (p + nodData)
    func d
    let _ ← run r
    return ⟨.void, 0⟩

theorem foreach_text (ext : Ext) {f : Nat} {func : Nat → BM Unit} (hf : IsFunc ext f func) :
    Foreach (fun p => run ext "tommy_tree_foreach_node" [⟨tNode, p⟩, ⟨.ptr .fn, f⟩]) func := by
  intro p
  simp only
  rw [run_fun rfl (show funs _ = some f_tommy_tree_foreach_node from rfl)]
  unfold f_tommy_tree_foreach_node
  simp only [Stmt.list]
  csimp [hf _]

theorem foreach_arg_text (ext : Ext) {f arg : Nat} {func : Nat → BM Unit} (hf : IsFuncArg ext f arg func) :
    Foreach (fun p => run ext "tommy_tree_foreach_arg_node" [⟨tNode, p⟩, ⟨.ptr .fn, f⟩, ⟨.ptr .void, arg⟩]) func := by
  intro p
  simp only
  rw [run_fun rfl (show funs _ = some f_tommy_tree_foreach_arg_node from rfl)]
  unfold f_tommy_tree_foreach_arg_node
  simp only [Stmt.list]
  csimp [hf _]

theorem Same.sub {w w' : AMem} {xs ys : List Nat} (h : Same w w' ys) (hx : ∀ x ∈ xs, x ∈ ys) : Same w w' xs := fun x m => h x (hx x m)

theorem foreach_spec {w : AMem} {S : Nat → Bool} {run : Nat → BM Val} {func : Nat → BM Unit} (hrun : Foreach run func) (t : T) :
    ∀ (p : Nat) (W : BMem), Rep (heapAt w S) t p →
    (∀ as x bs, t.nodes = as ++ x :: bs → ∀ W1, callAll func (as.map fun x => rd w (x + nodData)) W = some ((), W1) → Same w W1.mem (x :: bs)) →
    run p W = (callAll func (t.nodes.map fun x => rd w (x + nodData)) W).map (fun r => (⟨.void, 0⟩, r.2)) := by
  have hns : nodNext + ptrSize ≤ nodeSize ∧ nodPrev + ptrSize ≤ nodeSize ∧ nodData + ptrSize ≤ nodeSize := by
    refine ⟨?_, ?_, ?_⟩ <;> archd
  induction t with
  | nil =>
    intro p W hr hf
    have e : p = 0 := hr
    rw [hrun, if_pos e]; rfl
  | node q i l r ihl ihr =>
    intro p W hr hf
    obtain ⟨rfl, ok, h3, h4, h5⟩ := hr
    have e1 : (T.node p i l r).nodes = l.nodes ++ (p :: r.nodes) := by simp [T.nodes]
    rw [e1] at hf
    have hs : Same w W.mem (l.nodes ++ (p :: r.nodes)) := by
      cases hl : l.nodes with
      | nil => exact hf [] p r.nodes (by simp [hl]) W rfl
      | cons y ys => exact hf [] y (ys ++ p :: r.nodes) (by simp [hl]) W rfl
    have a1 := ihl _ W h4 fun as x bs e W1 hW => (hf as x (bs ++ p :: r.nodes) (by rw [e]; simp) W1 hW).sub fun y hy => by
      simp only [List.mem_cons, List.mem_append] at hy ⊢
      exact hy.imp_right .inl
    simp only [T.nodes, List.map_append, List.map_cons, callAll_append, callAll]
    rw [hrun, if_neg ok.1]
    simp only [run_bind, same_get hs (x := p) (by simp) hns.2.1, Option.bind_some]
    simp only [heapAt] at a1
    rw [a1]
    cases hc : callAll func (l.nodes.map fun x => rd w (x + nodData)) W with
    | none => rfl
    | some x =>
      obtain ⟨⟨⟩, W1⟩ := x
      have b1 := hf l.nodes p r.nodes rfl W1 hc
      simp only [Option.bind_some, Option.map_some, same_get b1 (x := p) (by simp) hns.1, same_get b1 (x := p) (by simp) hns.2.2]
      cases hc2 : func (rd w (p + nodData)) W1 with
      | none => rfl
      | some y =>
        obtain ⟨⟨⟩, W2⟩ := y
        simp only [Option.bind_some]
        have c1 := ihr _ W2 h5 fun as x bs e W3 hW => hf (l.nodes ++ p :: as) x bs (by rw [e]; simp) W3 (by
          simp only [List.map_append, List.map_cons, callAll_append, callAll, run_bind, hc, Option.bind_some, hc2, hW])
        simp only [heapAt] at c1
        rw [c1]
        cases callAll func (r.nodes.map fun x => rd w (x + nodData)) W2 <;> rfl

/-- The two calls. -/
theorem run_foreach (ext : Ext) (t f : Nat) : run ext "tommy_tree_foreach" [⟨tTree, t⟩, ⟨.ptr .fn, f⟩] = (do
    let r ← bget t
    let _ ← run ext "tommy_tree_foreach_node" [⟨tNode, r⟩, ⟨.ptr .fn, f⟩]
    return ⟨.void, 0⟩) := by
  rw [run_fun rfl (show funs _ = some f_tommy_tree_foreach from rfl)]
  unfold f_tommy_tree_foreach
  simp only [Stmt.list]
  csimp [field_root]
  rfl

theorem run_foreach_arg (ext : Ext) (t f arg : Nat) : run ext "tommy_tree_foreach_arg" [⟨tTree, t⟩, ⟨.ptr .fn, f⟩, ⟨.ptr .void, arg⟩] = (do
    let r ← bget t
    let _ ← run ext "tommy_tree_foreach_arg_node" [⟨tNode, r⟩, ⟨.ptr .fn, f⟩, ⟨.ptr .void, arg⟩]
    return ⟨.void, 0⟩) := by
  rw [run_fun rfl (show funs _ = some f_tommy_tree_foreach_arg from rfl)]
  unfold f_tommy_tree_foreach_arg
  simp only [Stmt.list]
  csimp [field_root]
  rfl

end Tommy.CTreeSpec
