import Verif.Model.ForeachArg
import Verif.Props.List
import Verif.Props.Hash
import Verif.Props.Tree
/-!
  The `foreach_arg` part of C06, C12 and C32.
-/
set_option autoImplicit false
namespace Tommy

variable [Arch]

omit [Arch] in
theorem listForeachArg_eq (list : Ptr) (func : Nat → Nat → HM Unit) (arg : Nat) :
    listForeachArg list func arg = listForeach list (func arg) := by
  unfold listForeachArg listForeach
  delta listForeachArgLoop listForeachLoop
  rfl

omit [Arch] in
theorem bucketForeachArgLoop_eq (func : Nat → Nat → MM Unit) (arg : Nat) (node : Ptr) :
    bucketForeachArgLoop func arg node = bucketForeachLoop (func arg) node := by
  delta bucketForeachArgLoop bucketForeachLoop
  rfl

omit [Arch] in
theorem posForeachArgLoop_eq (func : Nat → Nat → MM Unit) (arg : Nat) (ref : Nat → MM Ref) (k : Nat) :
    ∀ pos, posForeachArgLoop func arg ref pos k = posForeachLoop (func arg) ref pos k := by
  induction k with
  | zero => intro pos; rfl
  | succ k ih =>
    intro pos
    simp only [posForeachArgLoop, posForeachLoop, bucketForeachArgLoop_eq, ih]

omit [Arch] in
theorem treeForeachArg_eq (tree : Tree) (func : Nat → Nat → HM Unit) (arg : Nat) :
    treeForeachArg tree func arg = treeForeach tree (func arg) := by
  unfold treeForeachArg treeForeach
  delta treeForeachArgNode treeForeachNode
  rfl

/-- **C06** for `tommy_list_foreach_arg`: each payload is passed once, in order, after the argument. -/
theorem C06_list_foreach_arg (s : ListSpec.St) (a : ListSpec.Ab) (hr : ListSpec.sys.Reach s a) (v : Nat) (l)
    (hl : a.val v = some l) (func : Nat → Nat → HM Unit) (arg : Nat)
    (hf : ∀ as x bs, l = as ++ x :: bs → ∀ h1 h2, ListSpec.SameNodes s.heap h1 (bs.map Prod.fst) →
      func arg x.2 h1 = some ((), h2) → ListSpec.SameNodes s.heap h2 (bs.map Prod.fst)) :
    listForeachArg (s.var v) func arg s.heap = ListSpec.callAll (func arg) (l.map Prod.snd) s.heap := by
  rw [listForeachArg_eq]
  exact C06_list_foreach s a hr v l hl (func arg) hf

/-- What C12 says of a state for `foreach_arg`. -/
def ForeachArgOk {T : Type} (fa : T → (Nat → Nat → MM Unit) → Nat → MM Unit) (s : HashSpec.St T) (a : HashSpec.Ab) : Prop :=
  ∃ L : List HashSpec.Elem, L.Perm a.elems ∧ ∀ func arg, HashSpec.GoodCallback s.mem (func arg) L →
    fa s.tbl func arg s.mem = HashSpec.callAll (func arg) (L.map HashSpec.Elem.data) s.mem

/-- **C12** for `tommy_hashtable_foreach_arg`. -/
theorem C12_foreach_arg_hashtable_partial (n : Nat) (hn : n ≤ HashSpec.maxBuckets) (m0 : Mem) (s a)
    (hr : (HashSpec.sys HashSpec.hashtableImpl (hashtableInit n) m0).Reach s a) : ForeachArgOk hashtableForeachArg s a := by
  obtain ⟨L, hp, h⟩ := C12_foreach_hashtable_partial n hn m0 s a hr
  refine ⟨L, hp, fun func arg hg => ?_⟩
  rw [hashtableForeachArg, posForeachArgLoop_eq]
  exact h (func arg) hg

/-- **C12** for `tommy_hashdyn_foreach_arg`. -/
theorem C12_foreach_arg_hashdyn (m0 : Mem) (s a) (hr : (HashSpec.sys HashSpec.hashdynImpl hashdynInit m0).Reach s a) :
    ForeachArgOk hashdynForeachArg s a := by
  obtain ⟨L, hp, h⟩ := C12_foreach_hashdyn m0 s a hr
  refine ⟨L, hp, fun func arg hg => ?_⟩
  rw [hashdynForeachArg, posForeachArgLoop_eq]
  exact h (func arg) hg

/-- **C12** for `tommy_hashlin_foreach_arg`. -/
theorem C12_foreach_arg_hashlin (m0 : Mem) (s a) (hr : (HashSpec.sys HashSpec.hashlinImpl hashlinInit m0).Reach s a) :
    ForeachArgOk hashlinForeachArg s a := by
  obtain ⟨L, hp, h⟩ := C12_foreach_hashlin m0 s a hr
  refine ⟨L, hp, fun func arg hg => ?_⟩
  rw [hashlinForeachArg, posForeachArgLoop_eq]
  exact h (func arg) hg

/-- **C32** for `tommy_tree_foreach_arg`. -/
theorem C32_tree_foreach_arg (s : TreeSpec.St) (a : TreeSpec.Ab) (hr : TreeSpec.sys.Reach s a) (v : Nat) (o : TreeSpec.OSet)
    (ho : a.val v = some o) :
    ∃ l, l.Perm o.elems ∧ (l.Pairwise fun x y => o.cmp x.2 y.2 < 0) ∧
      ∀ (func : Nat → Nat → HM Unit) (arg : Nat),
        (∀ as x bs, l = as ++ x :: bs → ∀ h1 h2, TreeSpec.SameNodes s.heap h1 (bs.map Prod.fst) →
          func arg x.2 h1 = some ((), h2) → TreeSpec.SameNodes s.heap h2 (bs.map Prod.fst)) →
        treeForeachArg (s.var v) func arg s.heap = ListSpec.callAll (func arg) (l.map Prod.snd) s.heap := by
  obtain ⟨l, h1, h2, h3⟩ := C32_tree_foreach s a hr v o ho
  refine ⟨l, h1, h2, fun func arg hf => ?_⟩
  rw [treeForeachArg_eq]
  exact h3 (func arg) hf

/-! ### Non vacuity: a callback that adds the payloads in the `index` of the node `arg`, out of the containers. -/

/-- C06 on the example: `20, 30, 10, 20` are summed in the node 50. -/
example : ∃ s a, ListSpec.sys.Reach s a ∧
    ∃ h, listForeachArg (s.var 0) (fun arg d h => some ((), { h with index := upd h.index arg (h.index arg + d) })) 50 s.heap =
      some ((), h) ∧ h.index 50 = s.heap.index 50 + 20 + 30 + 10 + 20 := by
  obtain ⟨s, a, hr, hl, _⟩ := exReach
  refine ⟨s, a, hr, ?_⟩
  rw [C06_list_foreach_arg s a hr 0 _ hl]
  · exact ⟨_, rfl, by simp [upd]⟩
  · intro as x bs _ h1 h2 same hf
    simp only [Option.some.injEq, Prod.mk.injEq, true_and] at hf
    subst hf
    exact same

end Tommy
