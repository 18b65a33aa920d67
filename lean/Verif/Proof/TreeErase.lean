import Verif.Model.TreeCost
import Verif.Proof.SortErase
/-! The counted insert and remove of the tree are the ones of the model, without the counter. -/
namespace Tommy

variable [Arch]
open Lean.Order

/-- `m` does what `c` does, without the counter. -/
def Er {α : Type} (c : HM (α × Nat)) (m : HM α) : Prop :=
  ∀ (h : Heap) (r : α × Nat) (h' : Heap), c h = some (r, h') → m h = some (Prod.fst r, h')

omit [Arch] in
theorem Er.adm {α : Type} (m : HM α) : admissible (fun c : HM (α × Nat) => Er c m) :=
  HM.adm fun h r h' => m h = some (Prod.fst r, h')

omit [Arch] in
theorem Er.pure {α : Type} (a : α) (k : Nat) : Er (pure (a, k)) (pure a) := by
  intro h r h' e
  simp only [run_pure, Option.some.injEq, Prod.mk.injEq] at e ⊢
  obtain ⟨rfl, rfl⟩ := e
  exact ⟨rfl, rfl⟩

omit [Arch] in
theorem Er.same {α β : Type} {m : HM α} {c : α → HM (β × Nat)} {f : α → HM β} (hf : ∀ a, Er (c a) (f a)) :
    Er (m >>= c) (m >>= f) := by
  intro h r h' e
  rw [run_bind] at e ⊢
  obtain ⟨⟨a, h1⟩, e1, e⟩ := Option.bind_eq_some_iff.1 e
  rw [e1]; exact hf a _ _ _ e

omit [Arch] in
theorem Er.bind {α β : Type} {m : HM α} {m' : HM (α × Nat)} {c : α × Nat → HM (β × Nat)} {f : α → HM β} (hm : Er m' m)
    (hf : ∀ a, Er (c a) (f (Prod.fst a))) : Er (m' >>= c) (m >>= f) := by
  intro h r h' e
  rw [run_bind] at e ⊢
  obtain ⟨⟨a, h1⟩, e1, e⟩ := Option.bind_eq_some_iff.1 e
  rw [hm _ _ _ e1]; exact hf a _ _ _ e

omit [Arch] in
theorem Er.ite {α : Type} {p : Prop} [Decidable p] {c1 c2 : HM (α × Nat)} {m1 m2 : HM α} (h1 : Er c1 m1) (h2 : Er c2 m2) :
    Er (if p then c1 else c2) (if p then m1 else m2) := by
  split
  · exact h1
  · exact h2

theorem tree_erase : (∀ root k, Er (treeRotateLeftC root k) (treeRotateLeft root)) ∧
    (∀ root k, Er (treeBalanceC root k) (treeBalance root)) ∧
    (∀ root k, Er (treeRotateRightC root k) (treeRotateRight root)) := by
  refine treeRotateLeftC.mutual_fixpoint_induct
    (fun g => ∀ root k, Er (g root k) (treeRotateLeft root))
    (fun g => ∀ root k, Er (g root k) (treeBalance root))
    (fun g => ∀ root k, Er (g root k) (treeRotateRight root)) ?_ ?_ ?_ ?_ ?_ ?_
  · exact adm_fun fun root => adm_fun fun k => Er.adm _
  · exact adm_fun fun root => adm_fun fun k => Er.adm _
  · exact adm_fun fun root => adm_fun fun k => Er.adm _
  · intro g ih root k
    rw [treeRotateLeft]
    exact .same fun _ => .same fun _ => .same fun _ => .bind (ih _ _) fun _ => .same fun _ => ih _ _
  · intro g1 g2 ih1 ih2 root k
    rw [treeBalance]
    refine .same fun _ => .ite (.same fun _ => .same fun _ => .ite (.bind (ih2 _ _) fun _ => .same fun _ => ih1 _ _) (ih1 _ _))
      (.ite (.same fun _ => .same fun _ => .ite (.bind (ih1 _ _) fun _ => .same fun _ => ih2 _ _) (ih2 _ _)) ?_)
    have fin : Er (do let j ← getIndex root; setIndex root (sizeT (j + 1)); pure (root, k + 1))
        (do let j ← getIndex root; setIndex root (sizeT (j + 1)); pure root) := .same fun _ => .same fun _ => .pure _ _
    refine .same fun _ => .same fun _ => .ite (.same fun _ => .same fun _ => .ite (.same fun _ => ?_) ?_) ?_ <;>
      exact .same fun _ => .ite (.same fun _ => .same fun _ => .ite (.same fun _ => fin) fin) fin
  · intro g ih root k
    rw [treeRotateRight]
    exact .same fun _ => .same fun _ => .same fun _ => .bind (ih _ _) fun _ => .same fun _ => ih _ _

theorem treeBalanceC_erase (root : Ptr) (k : Nat) : Er (treeBalanceC root k) (treeBalance root) := tree_erase.2.1 root k

theorem treeMoveRightC_erase (node : Ptr) (k : Nat) : ∀ root, Er (treeMoveRightC root node k) (treeMoveRight root node) := by
  refine treeMoveRightC.fixpoint_induct node k (fun g => ∀ root, Er (g root) (treeMoveRight root node)) ?_ ?_
  · exact adm_fun fun root => Er.adm _
  · intro g ih root
    rw [treeMoveRight]
    exact .ite (.pure _ _) (.same fun _ => .bind (ih _) fun _ => .same fun _ => treeBalanceC_erase _ _)

theorem treeInsertNodeC_erase (cmp : Nat → Nat → Int) (let_ : Ptr) :
    ∀ root k, Er (treeInsertNodeC cmp root let_ k) (treeInsertNode cmp root let_) := by
  refine treeInsertNodeC.fixpoint_induct cmp let_ (fun g => ∀ root k, Er (g root k) (treeInsertNode cmp root let_)) ?_ ?_
  · exact adm_fun fun root => adm_fun fun k => Er.adm _
  · intro g ih root k
    rw [treeInsertNode]
    refine .ite (.pure _ _) (.same fun _ => .same fun _ => .ite ?_ (.ite ?_ (.pure _ _)))
    · exact .same fun _ => .bind (ih _ _) fun _ => .same fun _ => .bind (treeBalanceC_erase _ _) fun _ => .pure _ _
    · exact .same fun _ => .bind (ih _ _) fun _ => .same fun _ => .bind (treeBalanceC_erase _ _) fun _ => .pure _ _

theorem treeRemoveNodeC_erase (cmp : Nat → Nat → Int) (data : Nat) (let_ : Ptr) :
    ∀ root k, Er (treeRemoveNodeC cmp root data let_ k) (treeRemoveNode cmp root data let_) := by
  refine treeRemoveNodeC.fixpoint_induct cmp data let_ (fun g => ∀ root k, Er (g root k) (treeRemoveNode cmp root data let_)) ?_ ?_
  · exact adm_fun fun root => adm_fun fun k => Er.adm _
  · intro g ih root k
    rw [treeRemoveNode]
    refine .ite (.pure _ _) (.same fun _ => .ite ?_ (.ite ?_ ?_))
    · exact .same fun _ => .bind (ih _ _) fun _ => .same fun _ => .bind (treeBalanceC_erase _ _) fun _ => .pure _ _
    · exact .same fun _ => .bind (ih _ _) fun _ => .same fun _ => .bind (treeBalanceC_erase _ _) fun _ => .pure _ _
    · exact .same fun _ => .same fun _ => .bind (treeMoveRightC_erase _ _ _) fun _ => .pure _ _

theorem treeInsertC_erase (tree : Tree) (node : Ptr) (data : Nat) : Er (treeInsertC tree node data) (treeInsert tree node data) := by
  unfold treeInsertC treeInsert
  exact .same fun _ => .same fun _ => .same fun _ => .same fun _ => .bind (treeInsertNodeC_erase _ _ _ _) fun _ =>
    .same fun _ => .pure _ _

theorem treeRemoveC_erase (tree : Tree) (data : Nat) : Er (treeRemoveC tree data) (treeRemove tree data) := by
  unfold treeRemoveC treeRemove
  exact .bind (treeRemoveNodeC_erase _ _ _ _ _) fun _ => .ite (.pure _ _) (.same fun _ => .pure _ _)

end Tommy
