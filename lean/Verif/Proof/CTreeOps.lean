import Verif.Proof.CTree
/-! tommytree.c: the functions that go down the tree. -/
set_option autoImplicit false
set_option linter.unusedSectionVars false
set_option linter.unusedSimpArgs false
namespace Tommy.C

open HashFlat Src
variable [Arch] {G : Gh} (ext : Ext)

theorem sim_balance {r : Nat} (hr : r < 2 ^ sizeBit) : SimE G (onNodes (treeBalance r)) (run ext "tommy_tree_balance" [⟨tNode, r⟩]) PNode :=
  (sim_bal ext).2.1 r G hr

open Lean.Order in
theorem adm_sim {α β : Type} (pre : Nat → Gh → Prop) (f : Nat → BM β) (Q : Gh → α → β → Gh → Prop) :
    admissible (fun g : Nat → HM α => ∀ root, ∀ G : Gh, pre root G → Sim G (onNodes (g root)) (f root) (Q G)) :=
  admissible_pi_apply (fun root (x : HM α) => ∀ G : Gh, pre root G → Sim G (onNodes x) (f root) (Q G)) fun root =>
    admissible_pi (fun (x : HM α) (G : Gh) => pre root G → Sim G (onNodes x) (f root) (Q G)) fun G =>
      admissible_pi (fun (x : HM α) (_ : pre root G) => Sim G (onNodes x) (f root) (Q G)) fun _ => Sim.admN _ _ _

theorem sim_moveRight {root node : Nat} (hr : root < 2 ^ sizeBit) (hn : node < 2 ^ sizeBit) :
    SimE G (onNodes (treeMoveRight root node)) (run ext "tommy_tree_move_right" [⟨tNode, root⟩, ⟨tNode, node⟩]) PNode := by
  suffices h : ∀ root, ∀ G : Gh, root < 2 ^ sizeBit →
      SimE G (onNodes (treeMoveRight root node)) (run ext "tommy_tree_move_right" [⟨tNode, root⟩, ⟨tNode, node⟩]) PNode from h root G hr
  apply treeMoveRight.fixpoint_induct node (motive := fun g => ∀ root, ∀ G : Gh, root < 2 ^ sizeBit →
      SimE G (onNodes (g root)) (run ext "tommy_tree_move_right" [⟨tNode, root⟩, ⟨tNode, node⟩]) PNode)
  · exact adm_sim _ (fun root => run ext "tommy_tree_move_right" [⟨tNode, root⟩, ⟨tNode, node⟩]) fun G a b G' => G' = G ∧ PNode a b
  intro g ih root G hr
  rw [run_fun rfl (show funs _ = some f_tommy_tree_move_right from rfl)]
  unfold f_tommy_tree_move_right
  simp only [Stmt.list]
  csimp
  simp only [mite_bind, pure_bind, ne_eq, ite_not, onNodes_bind, onNodes_ite, onNodes_pure, bind_assoc]
  refine Sim.ite Iff.rfl (fun _ => sim_root hn) fun _ => ?_
  refine (sim_getNext root).bind fun n _ ⟨e, hn⟩ => e ▸ ?_
  refine (ih n G hn).bind fun b _ ⟨e, hb⟩ => ?_
  rw [e, conv_same]
  exact (sim_setNext root hb).bind fun _ _ _ => simE_last (sim_balance ext hr)

/-! ### The comparison function -/

/-- The bits of the int `n`. -/
def ibits (n : Int) : Nat := (n % (2 ^ 32 : Nat)).toNat

/-- `cmp` is the comparison function at the address `c`. -/
structure IsCmp2 (c : Nat) (cmp : Nat → Nat → Int) : Prop where
  call : ∀ x y, ext c [⟨.ptr .void, x⟩, ⟨.ptr .void, y⟩] = pure ⟨.s32, ibits (cmp x y)⟩
  lo : ∀ x y, -2 ^ 31 ≤ cmp x y
  hi : ∀ x y, cmp x y < 2 ^ 31

theorem int_res {n : Int} (h : -2 ^ 31 ≤ n) (h' : n < 2 ^ 31) : (Val.mk .s32 (ibits n)).int = n := by
  rw [int_s]
  unfold ibits
  simp only [Nat.reducePow, Int.reducePow, Int.reduceNeg, Nat.cast_ofNat] at *
  split <;> omega

theorem lt_res {n : Int} (h : -2 ^ 31 ≤ n) (h' : n < 2 ^ 31) : binop .lt ⟨.s32, (ibits n)⟩ ⟨.s32, 0⟩ = some (bool (n < 0)) := by
  bin [int_res h h', int_s0]

theorem gt_res {n : Int} (h : -2 ^ 31 ≤ n) (h' : n < 2 ^ 31) : binop .gt ⟨.s32, (ibits n)⟩ ⟨.s32, 0⟩ = some (bool (n > 0)) := by
  bin [int_res h h', int_s0]

variable {c : Nat} {cmp : Nat → Nat → Int}

theorem sim_searchNode (hc : IsCmp2 ext c cmp) {root : Nat} (data : Nat) (hr : root < 2 ^ sizeBit) :
    SimE G (onNodes (treeSearchNode cmp root data)) (run ext "tommy_tree_search_node" [⟨.ptr .fn, c⟩, ⟨tNode, root⟩, ⟨.ptr .void, data⟩]) PNode := by
  suffices h : ∀ root, ∀ G : Gh, root < 2 ^ sizeBit →
      SimE G (onNodes (treeSearchNode cmp root data)) (run ext "tommy_tree_search_node" [⟨.ptr .fn, c⟩, ⟨tNode, root⟩, ⟨.ptr .void, data⟩]) PNode from h root G hr
  apply treeSearchNode.fixpoint_induct cmp data (motive := fun g => ∀ root, ∀ G : Gh, root < 2 ^ sizeBit →
      SimE G (onNodes (g root)) (run ext "tommy_tree_search_node" [⟨.ptr .fn, c⟩, ⟨tNode, root⟩, ⟨.ptr .void, data⟩]) PNode)
  · exact adm_sim _ (fun root => run ext "tommy_tree_search_node" [⟨.ptr .fn, c⟩, ⟨tNode, root⟩, ⟨.ptr .void, data⟩]) fun G a b G' => G' = G ∧ PNode a b
  intro g ih root G hr
  rw [run_fun rfl (show funs _ = some f_tommy_tree_search_node from rfl)]
  unfold f_tommy_tree_search_node
  simp only [Stmt.list]
  csimp [hc.call]
  simp only [lt_res (hc.lo _ _) (hc.hi _ _), gt_res (hc.lo _ _) (hc.hi _ _), lift_some, pure_bind, bool_v, bool_zero, ite_not]
  simp only [mite_bind, pure_bind, ne_eq, ite_not, onNodes_bind, onNodes_ite, onNodes_pure, bind_assoc]
  refine Sim.ite Iff.rfl (fun _ => sim_root zero_lt_size) fun _ => ?_
  refine (sim_getData root).bind fun b _ ⟨e, hb⟩ => e ▸ ?_
  refine Sim.ite Iff.rfl (fun _ => ?_) fun _ => Sim.ite Iff.rfl (fun _ => ?_) fun _ => sim_root hr
  · exact (sim_getPrev root).bind fun n _ ⟨e, hn⟩ => e ▸ simE_last (ih n G hn)
  · exact (sim_getNext root).bind fun n _ ⟨e, hn⟩ => e ▸ simE_last (ih n G hn)

/-- The result of the functions that change `*let`. -/
def PLet (s : Nat) (G : Gh) (a : Nat × Nat) (v : Val) (G' : Gh) : Prop := v = ⟨tNode, a.1⟩ ∧ a.1 < 2 ^ sizeBit ∧ a.2 < 2 ^ sizeBit ∧ G' = G.set s ptrSize a.2

theorem set_self {s x : Nat} (h : G.F s ptrSize = some (some x)) : G.set s ptrSize x = G := by
  unfold Gh.set
  congr
  funext y n
  unfold Fld.set
  split
  · rename_i e; rw [e.1, e.2, h]
  · rfl

theorem sim_let {s : Nat} {x : HM Nat} {y : BM Val} {l : Nat} (hl : l < 2 ^ sizeBit) (h : SimE (G.set s ptrSize l) (onNodes x) y PNode) :
    Sim (G.set s ptrSize l) (onNodes x >>= fun t => Pure.pure (t, l)) (y >>= fun v => Pure.pure (conv tNode v)) (PLet s G) :=
  SimE.bind h fun a b ⟨e, ha⟩ => Sim.pure ⟨by rw [e, conv_same], ha, hl, rfl⟩

theorem lt_of_size {x : Nat} (h : x < 2 ^ (8 * ptrSize)) : x < 2 ^ sizeBit := by rwa [pow_size] at h

theorem sim_insertNode (hc : IsCmp2 ext c cmp) {root let_ s : Nat} (hr : root < 2 ^ sizeBit) (hF : G.F s ptrSize = some (some let_)) :
    Sim G (onNodes (treeInsertNode cmp root let_)) (run ext "tommy_tree_insert_node" [⟨.ptr .fn, c⟩, ⟨tNode, root⟩, ⟨.ptr tNode, s⟩]) (PLet s G) := by
  suffices h : ∀ root, ∀ G : Gh, (root < 2 ^ sizeBit ∧ G.F s ptrSize = some (some let_)) →
      Sim G (onNodes (treeInsertNode cmp root let_)) (run ext "tommy_tree_insert_node" [⟨.ptr .fn, c⟩, ⟨tNode, root⟩, ⟨.ptr tNode, s⟩]) (PLet s G) from h root G ⟨hr, hF⟩
  apply treeInsertNode.fixpoint_induct cmp let_ (motive := fun g => ∀ root, ∀ G : Gh, (root < 2 ^ sizeBit ∧ G.F s ptrSize = some (some let_)) →
      Sim G (onNodes (g root)) (run ext "tommy_tree_insert_node" [⟨.ptr .fn, c⟩, ⟨tNode, root⟩, ⟨.ptr tNode, s⟩]) (PLet s G))
  · exact adm_sim _ (fun root => run ext "tommy_tree_insert_node" [⟨.ptr .fn, c⟩, ⟨tNode, root⟩, ⟨.ptr tNode, s⟩]) _
  rintro g ih root G ⟨hr, hF⟩
  rw [run_fun rfl (show funs _ = some f_tommy_tree_insert_node from rfl)]
  unfold f_tommy_tree_insert_node
  simp only [Stmt.list]
  csimp [hc.call]
  simp only [lt_res (hc.lo _ _) (hc.hi _ _), gt_res (hc.lo _ _) (hc.hi _ _), lift_some, pure_bind, bool_v, bool_zero, ite_not]
  simp only [mite_bind, pure_bind, ne_eq, ite_not, onNodes_bind, onNodes_ite, onNodes_pure, bind_assoc]
  refine Sim.ite Iff.rfl (fun _ => sim_fget hF fun h => Sim.pure ⟨rfl, lt_of_size h, lt_of_size h, (set_self hF).symm⟩) fun _ => ?_
  refine sim_fget hF fun hl => ?_
  refine (sim_getData let_).bind fun a _ ⟨e, ha⟩ => e ▸ ?_
  refine (sim_getData root).bind fun b _ ⟨e, hb⟩ => e ▸ ?_
  refine Sim.ite Iff.rfl (fun _ => ?_) fun _ => Sim.ite Iff.rfl (fun _ => ?_) fun _ => ?_
  · refine (sim_getPrev root).bind fun n _ ⟨e, hn⟩ => e ▸ Sim.bind (ih n G ⟨hn, hF⟩) ?_
    rintro ⟨b, l⟩ _ _ ⟨rfl, hb, hl, rfl⟩
    rw [conv_same]
    exact (sim_setPrev root hb).bind fun _ _ _ => sim_let hl (sim_balance ext hr)
  · refine (sim_getNext root).bind fun n _ ⟨e, hn⟩ => e ▸ Sim.bind (ih n G ⟨hn, hF⟩) ?_
    rintro ⟨b, l⟩ _ _ ⟨rfl, hb, hl, rfl⟩
    rw [conv_same]
    exact (sim_setNext root hb).bind fun _ _ _ => sim_let hl (sim_balance ext hr)
  · exact sim_fset (by rw [hF]; nofun) (by rwa [pow_size]) (Sim.pure ⟨rfl, hr, hr, rfl⟩)

theorem sim_removeNode (hc : IsCmp2 ext c cmp) {root let_ s : Nat} (data : Nat) (hr : root < 2 ^ sizeBit) (hF : G.F s ptrSize = some (some let_)) (hl : let_ < 2 ^ sizeBit) :
    Sim G (onNodes (treeRemoveNode cmp root data let_))
      (run ext "tommy_tree_remove_node" [⟨.ptr .fn, c⟩, ⟨tNode, root⟩, ⟨.ptr .void, data⟩, ⟨.ptr tNode, s⟩]) (PLet s G) := by
  suffices h : ∀ root, ∀ G : Gh, (root < 2 ^ sizeBit ∧ G.F s ptrSize = some (some let_)) →
      Sim G (onNodes (treeRemoveNode cmp root data let_))
        (run ext "tommy_tree_remove_node" [⟨.ptr .fn, c⟩, ⟨tNode, root⟩, ⟨.ptr .void, data⟩, ⟨.ptr tNode, s⟩]) (PLet s G) from h root G ⟨hr, hF⟩
  apply treeRemoveNode.fixpoint_induct cmp data let_ (motive := fun g => ∀ root, ∀ G : Gh, (root < 2 ^ sizeBit ∧ G.F s ptrSize = some (some let_)) →
      Sim G (onNodes (g root)) (run ext "tommy_tree_remove_node" [⟨.ptr .fn, c⟩, ⟨tNode, root⟩, ⟨.ptr .void, data⟩, ⟨.ptr tNode, s⟩]) (PLet s G))
  · exact adm_sim _ (fun root => run ext "tommy_tree_remove_node" [⟨.ptr .fn, c⟩, ⟨tNode, root⟩, ⟨.ptr .void, data⟩, ⟨.ptr tNode, s⟩]) _
  rintro g ih root G ⟨hr, hF⟩
  rw [run_fun rfl (show funs _ = some f_tommy_tree_remove_node from rfl)]
  unfold f_tommy_tree_remove_node
  simp only [Stmt.list]
  csimp [hc.call]
  simp only [lt_res (hc.lo _ _) (hc.hi _ _), gt_res (hc.lo _ _) (hc.hi _ _), lift_some, pure_bind, bool_v, bool_zero, ite_not]
  simp only [mite_bind, pure_bind, ne_eq, ite_not, onNodes_bind, onNodes_ite, onNodes_pure, bind_assoc]
  refine Sim.ite Iff.rfl (fun _ => Sim.pure ⟨rfl, zero_lt_size, hl, (set_self hF).symm⟩) fun _ => ?_
  refine (sim_getData root).bind fun b _ ⟨e, hb⟩ => e ▸ ?_
  refine Sim.ite Iff.rfl (fun _ => ?_) fun _ => Sim.ite Iff.rfl (fun _ => ?_) fun _ => ?_
  · refine (sim_getPrev root).bind fun n _ ⟨e, hn⟩ => e ▸ Sim.bind (ih n G ⟨hn, hF⟩) ?_
    rintro ⟨b, l⟩ _ _ ⟨rfl, hb, hl, rfl⟩
    rw [conv_same]
    exact (sim_setPrev root hb).bind fun _ _ _ => sim_let hl (sim_balance ext hr)
  · refine (sim_getNext root).bind fun n _ ⟨e, hn⟩ => e ▸ Sim.bind (ih n G ⟨hn, hF⟩) ?_
    rintro ⟨b, l⟩ _ _ ⟨rfl, hb, hl, rfl⟩
    rw [conv_same]
    exact (sim_setNext root hb).bind fun _ _ _ => sim_let hl (sim_balance ext hr)
  · refine sim_fset (by rw [hF]; nofun) (by rwa [pow_size]) ?_
    refine (sim_getPrev root).bind fun n _ ⟨e, hn⟩ => e ▸ (sim_getNext root).bind fun k _ ⟨e, hk⟩ => e ▸ ?_
    exact sim_let hr (sim_moveRight ext hn hk)

end Tommy.C
