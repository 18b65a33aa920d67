import Verif.Proof.CImpl
import Verif.Model.Tree
/-! tommytree.h, tommytree.c: the text in C does what the model does. -/
set_option autoImplicit false
set_option linter.unusedSectionVars false
set_option linter.unusedSimpArgs false
namespace Tommy.C

variable [Arch]
open HashFlat Src

/-! ### Signed numbers -/

/-- The bits of the `ssize` `n`. -/
def sbits (n : Int) : Nat := (n % (2 ^ sizeBit : Nat)).toNat

/-- The number is a `tommy_ssize_t`. -/
def IsSsize (n : Int) : Prop := -2 ^ (sizeBit - 1) ≤ n ∧ n < 2 ^ (sizeBit - 1)

theorem int_ss (v : Nat) : (Val.mk .ssize v).int = if 2 ^ (sizeBit - 1) ≤ v then (v : Int) - 2 ^ sizeBit else v := by
  simp only [Val.int, CTy.signed, CTy.bits, true_and]

theorem int_sbits {n : Int} (h : IsSsize n) : (Val.mk .ssize (sbits n)).int = n := by
  rw [int_ss]
  unfold sbits IsSsize at *
  revert h
  unfold sizeBit
  cases ‹Arch› <;> simp only [Nat.reducePow, Nat.reduceSub, Int.reducePow, Int.reduceNeg, Nat.cast_ofNat] <;> intro h <;> split <;> omega

theorem t_int_ssize {n : Nat} (h : n < 2 ^ sizeBit) : (Val.mk .ssize n).int = ssize n := by
  rw [int_ss]
  unfold ssize
  revert h
  unfold sizeBit
  cases ‹Arch› <;> simp only [Nat.reducePow, Nat.reduceSub, Int.reducePow, Int.reduceNeg, Nat.cast_ofNat] <;> intro h <;> split <;> split <;> omega

theorem isSsize_ssize {n : Nat} (h : n < 2 ^ sizeBit) : IsSsize (ssize n) := by
  unfold IsSsize ssize
  revert h
  unfold sizeBit
  cases ‹Arch› <;> simp only [Nat.reducePow, Nat.reduceSub, Int.reducePow, Int.reduceNeg] <;> intro h <;> split <;> omega

theorem t_conv_ssize_usize (n : Nat) (h : n < 2 ^ sizeBit) : conv .ssize ⟨.usize, n⟩ = ⟨.ssize, n⟩ := by
  unfold conv
  rw [if_neg nofun, if_neg (fun h => nomatch h.2), int_usize, toNat_mod]
  exact congrArg _ (Nat.mod_eq_of_lt h)

theorem sub_ssize {a b : Nat} (ha : a < 2 ^ sizeBit) (hb : b < 2 ^ sizeBit) : binop .sub ⟨.ssize, a⟩ ⟨.ssize, b⟩ =
    if -2 ^ (sizeBit - 1) ≤ ssize a - ssize b ∧ ssize a - ssize b < 2 ^ (sizeBit - 1) then some ⟨.ssize, sbits (ssize a - ssize b)⟩ else none := by
  bin [t_int_ssize ha, t_int_ssize hb, result, CTy.signed, CTy.bits, if_true]
  simp only [Nat.cast_pow, Nat.cast_ofNat, sbits]

theorem int_s (v : Nat) : (Val.mk .s32 v).int = if 2 ^ 31 ≤ v then (v : Int) - 2 ^ 32 else (v : Int) := by
  simp only [Val.int, CTy.signed, CTy.bits, true_and, Nat.reduceSub]

theorem conv_ssize_s32 {v : Nat} {n : Int} (h : (Val.mk .s32 v).int = n) : conv .ssize ⟨.s32, v⟩ = ⟨.ssize, sbits n⟩ := by
  unfold conv
  rw [if_neg nofun, if_neg (fun h => nomatch h.2), h]
  rfl

theorem isSsize_small {n : Int} (h : -2 ^ 31 ≤ n) (h' : n < 2 ^ 31) : IsSsize n := by
  unfold IsSsize sizeBit
  cases ‹Arch› <;> simp only [Nat.reducePow, Nat.reduceSub, Int.reducePow, Int.reduceNeg] at * <;> omega

theorem lt_ssize {d n : Int} {v : Nat} (hd : IsSsize d) (h : (Val.mk .s32 v).int = n) (h1 : -2 ^ 31 ≤ n) (h2 : n < 2 ^ 31) :
    binop .lt ⟨.ssize, sbits d⟩ ⟨.s32, v⟩ = some (bool (d < n)) := by
  bin [conv_ssize_s32 h, int_sbits hd, int_sbits (isSsize_small h1 h2)]

theorem gt_ssize {d n : Int} {v : Nat} (hd : IsSsize d) (h : (Val.mk .s32 v).int = n) (h1 : -2 ^ 31 ≤ n) (h2 : n < 2 ^ 31) :
    binop .gt ⟨.ssize, sbits d⟩ ⟨.s32, v⟩ = some (bool (d > n)) := by
  bin [conv_ssize_s32 h, int_sbits hd, int_sbits (isSsize_small h1 h2)]

theorem int_s0 : (Val.mk .s32 0).int = 0 := by rw [int_s]; norm_num
theorem int_s1 : (Val.mk .s32 1).int = 1 := by rw [int_s]; norm_num
theorem int_sm1 : (Val.mk .s32 4294967295).int = -1 := by rw [int_s, if_pos (by decide)]; norm_num

theorem neg_one : result (promote .s32) (-(Val.mk .s32 1).int) = some ⟨.s32, 4294967295⟩ := by
  rw [int_s1]
  simp [result, promote, CTy.signed, CTy.bits]

theorem zero_lt_size : 0 < 2 ^ sizeBit := Nat.two_pow_pos _

variable {G : Gh}

/-- The difference. -/
theorem sim_sub {a b : Nat} (ha : a < 2 ^ sizeBit) (hb : b < 2 ^ sizeBit) :
    SimE G (onNodes (ssizeSub (ssize a) (ssize b))) (lift (binop .sub ⟨.ssize, a⟩ ⟨.ssize, b⟩) >>= fun v => pure (conv .ssize v))
      fun x v => v = ⟨.ssize, sbits x⟩ ∧ IsSsize x := by
  intro m W hr x m' e
  rw [sub_ssize ha hb]
  simp only [onNodes, zoom, ssizeSub] at e
  split at e
  · cases e
  rename_i h e'
  split at e'
  swap
  · cases e'
  rename_i hc
  cases e'
  cases e
  rw [if_pos hc, lift_some, pure_bind, conv_same]
  exact ⟨_, W, G, rfl, hr, rfl, rfl, hc⟩

theorem mite_bind {α β : Type} {c : Prop} [Decidable c] {x y : HM α} {f : α → HM β} : ((if c then x else y) >>= f) = if c then x >>= f else y >>= f := by
  split <;> rfl

theorem field_root : field structs "tommy_tree_struct" "root" = some (tNode, 0) := by cases ‹Arch› <;> rfl
theorem field_cmp : field structs "tommy_tree_struct" "cmp" = some (.ptr .fn, ptrSize) := by cases ‹Arch› <;> rfl
theorem field_count : field structs "tommy_tree_struct" "count" = some (.usize, 2 * ptrSize) := by cases ‹Arch› <;> rfl

variable (ext : Ext)

theorem sim_delta (r : Nat) : SimE G (onNodes (treeDelta r)) (run ext "tommy_tree_delta" [⟨tNode, r⟩])
    fun x v => v = ⟨.ssize, sbits x⟩ ∧ IsSsize x := by
  rw [run_fun rfl (show funs _ = some f_tommy_tree_delta from rfl)]
  unfold f_tommy_tree_delta
  simp only [Stmt.list]
  csimp
  simp only [get_again_ite']
  simp only [treeDelta, mite_bind, pure_bind, ne_eq, ite_not, onNodes_bind, onNodes_ite]
  refine (sim_getPrev r).bind fun p _ ⟨e, hp⟩ => e ▸ Sim.ite Iff.rfl (fun _ => ?_) fun _ => ?_
  · refine (sim_getNext r).bind fun n _ ⟨e, hn⟩ => e ▸ Sim.ite Iff.rfl (fun _ => ?_) fun _ => ?_
    · exact sim_sub zero_lt_size zero_lt_size
    · refine (sim_getIndex n).bind fun j _ ⟨e, hj⟩ => e ▸ ?_
      rw [t_conv_ssize_usize j hj]
      exact sim_sub zero_lt_size hj
  · refine (sim_getIndex p).bind fun i _ ⟨e, hi⟩ => e ▸ ?_
    rw [t_conv_ssize_usize i hi]
    refine (sim_getNext r).bind fun n _ ⟨e, hn⟩ => e ▸ Sim.ite Iff.rfl (fun _ => ?_) fun _ => ?_
    · exact sim_sub hi zero_lt_size
    · refine (sim_getIndex n).bind fun j _ ⟨e, hj⟩ => e ▸ ?_
      rw [t_conv_ssize_usize j hj]
      exact sim_sub hi hj

/-- `x` does not change the memory. -/
def TReadOnly {α : Type} (x : BM α) : Prop := ∀ w a w', x w = some (a, w') → w' = w

theorem TReadOnly.pure {α : Type} (a : α) : TReadOnly (Pure.pure a) := by intro w a' w' e; cases e; rfl
theorem TReadOnly.lift {α : Type} (o : Option α) : TReadOnly (lift o) := by
  cases o with
  | none => intro w a w' e; cases e
  | some x => exact TReadOnly.pure x
theorem TReadOnly.get (p : Nat) : TReadOnly (bget p) := by
  intro w a w' e
  unfold bget bgetN at e
  split at e
  · cases e; rfl
  · cases e
theorem TReadOnly.bind {α β : Type} {x : BM α} {f : α → BM β} (h : TReadOnly x) (h' : ∀ a, TReadOnly (f a)) : TReadOnly (x >>= f) := by
  intro w a w' e
  obtain ⟨c, w1, e1, e2⟩ := bind_inv e
  cases h w c w1 e1
  exact h' c w a w' e2
theorem TReadOnly.ite {α : Type} {c : Prop} [Decidable c] {x y : BM α} (hx : TReadOnly x) (hy : TReadOnly y) : TReadOnly (if c then x else y) := by
  split <;> assumption

theorem delta_ro (r : Nat) : TReadOnly (run ext "tommy_tree_delta" [⟨tNode, r⟩]) := by
  rw [run_fun rfl (show funs _ = some f_tommy_tree_delta from rfl)]
  unfold f_tommy_tree_delta
  simp only [Stmt.list]
  csimp
  repeat' first
    | exact TReadOnly.pure _
    | exact TReadOnly.lift _
    | exact TReadOnly.get _
    | refine TReadOnly.bind ?_ fun _ => ?_
    | refine TReadOnly.ite ?_ ?_

/-- Reads again after something that only reads. -/
theorem get_again_ro_ite {α γ δ : Type} {p : Nat} {D : Nat → BM γ} (hD : ∀ x, TReadOnly (D x)) (L : γ → Option δ) (c : δ → Prop) [∀ d, Decidable (c d)]
    (k : Nat → BM α) (m : BM α) :
    (do let x ← bget p; let d ← D x; let b ← lift (L d); if c b then m else do let y ← bget p; k y) =
      (do let x ← bget p; let d ← D x; let b ← lift (L d); if c b then m else k x) := by
  funext w
  refine get_at fun v e => ?_
  show (D v w).bind _ = (D v w).bind _
  cases h : D v w with
  | none => rfl
  | some r =>
    obtain ⟨d, w'⟩ := r
    cases hD v w d w' h
    simp only [Option.bind_some]
    cases L d with
    | none => rfl
    | some b =>
      simp only [lift_some, pure_bind]
      split
      · rfl
      · exact get_known e

/-- The pattern `p && p->index > q->index` and then again the read of the same. -/
theorem get_again_max {α : Type} (p q : Nat) (k : Nat → BM α) (m m' : BM α) :
    (do let x ← bget p
        if x = 0 then m else do
        let x ← bget p
        let i ← bget (x + nodIndex)
        let j ← bget q
        if i > j then do
          let x ← bget p
          let i ← bget (x + nodIndex)
          k i
        else m') =
    (do let x ← bget p
        if x = 0 then m else do
        let i ← bget (x + nodIndex)
        let j ← bget q
        if i > j then k i else m') := by
  funext w
  refine get_at fun v e => ?_
  split
  · rfl
  rw [get_known e]
  refine get_at fun i e' => ?_
  refine get_at fun j _ => ?_
  split
  · rw [get_known e, get_known e']
  · rfl

/-- A pointer to a node. -/
def PNode (a : Nat) (v : Val) : Prop := v = ⟨tNode, a⟩ ∧ a < 2 ^ sizeBit

theorem simE_last {x : HM Nat} {y : BM Val} (h : SimE G (onNodes x) y PNode) : SimE G (onNodes x) (y >>= fun v => Pure.pure (conv tNode v)) PNode := by
  have : SimE G (onNodes x >>= fun a => Pure.pure a) (y >>= fun v => Pure.pure (conv tNode v)) PNode :=
    SimE.bind h fun a b ⟨e, ha⟩ => Sim.pure ⟨rfl, by rw [e, conv_same], ha⟩
  rwa [bind_pure] at this

theorem sim_root {r : Nat} (hr : r < 2 ^ sizeBit) : SimE G (Pure.pure r : MM Nat) (Pure.pure ⟨tNode, r⟩ : BM Val) PNode := Sim.pure ⟨rfl, rfl, hr⟩

theorem t_sizeT_lt' (n : Nat) : sizeT n < 2 ^ sizeBit := Nat.mod_lt _ zero_lt_size

open Lean.Order in
theorem adm_node (f : Nat → BM Val) : admissible (fun g : Nat → HM Nat => ∀ root, ∀ G : Gh, root < 2 ^ sizeBit → SimE G (onNodes (g root)) (f root) PNode) :=
  admissible_pi_apply (fun root (x : HM Nat) => ∀ G : Gh, root < 2 ^ sizeBit → SimE G (onNodes x) (f root) PNode) fun root =>
    admissible_pi (fun (x : HM Nat) (G : Gh) => root < 2 ^ sizeBit → SimE G (onNodes x) (f root) PNode) fun G =>
      admissible_pi (fun (x : HM Nat) (_ : root < 2 ^ sizeBit) => SimE G (onNodes x) (f root) PNode) fun _ => Sim.admN _ _ _

theorem sim_bal : (∀ root, ∀ G : Gh, root < 2 ^ sizeBit → SimE G (onNodes (treeRotateLeft root)) (run ext "tommy_tree_rotate_left" [⟨tNode, root⟩]) PNode) ∧
    (∀ root, ∀ G : Gh, root < 2 ^ sizeBit → SimE G (onNodes (treeBalance root)) (run ext "tommy_tree_balance" [⟨tNode, root⟩]) PNode) ∧
    (∀ root, ∀ G : Gh, root < 2 ^ sizeBit → SimE G (onNodes (treeRotateRight root)) (run ext "tommy_tree_rotate_right" [⟨tNode, root⟩]) PNode) := by
  refine treeRotateLeft.mutual_fixpoint_induct
    (fun g => ∀ root, ∀ G : Gh, root < 2 ^ sizeBit → SimE G (onNodes (g root)) (run ext "tommy_tree_rotate_left" [⟨tNode, root⟩]) PNode)
    (fun g => ∀ root, ∀ G : Gh, root < 2 ^ sizeBit → SimE G (onNodes (g root)) (run ext "tommy_tree_balance" [⟨tNode, root⟩]) PNode)
    (fun g => ∀ root, ∀ G : Gh, root < 2 ^ sizeBit → SimE G (onNodes (g root)) (run ext "tommy_tree_rotate_right" [⟨tNode, root⟩]) PNode) ?_ ?_ ?_ ?_ ?_ ?_
  · exact adm_node _
  · exact adm_node _
  · exact adm_node _
  · intro g ih root G hr
    rw [run_fun rfl (show funs _ = some f_tommy_tree_rotate_left from rfl)]
    unfold f_tommy_tree_rotate_left
    simp only [Stmt.list]
    csimp
    simp only [onNodes_bind]
    refine (sim_getNext root).bind fun n _ ⟨e, hn⟩ => e ▸ ?_
    refine (sim_getPrev n).bind fun c _ ⟨e, hc⟩ => e ▸ ?_
    refine (sim_setNext root hc).bind fun _ _ _ => ?_
    refine (ih root G hr).bind fun b _ ⟨e, hb⟩ => ?_
    rw [e, conv_same]
    refine (sim_setPrev n hb).bind fun _ _ _ => ?_
    exact simE_last (ih n G hn)
  · intro gl gr ihl ihr root G hr
    rw [run_fun rfl (show funs _ = some f_tommy_tree_balance from rfl)]
    unfold f_tommy_tree_balance
    simp only [Stmt.list]
    csimp [neg_one]
    simp only [get_again_max, get_again_ro_ite (delta_ro ext)]
    simp only [mite_bind, pure_bind, ne_eq, ite_not, onNodes_bind, onNodes_ite, onNodes_pure, bind_assoc]
    refine (sim_delta ext root).bind fun d _ ⟨e, hd⟩ => ?_
    rw [e, conv_same]
    simp only [lt_ssize hd int_sm1 (by decide) (by decide), gt_ssize hd int_s1 (by decide) (by decide), lift_some, pure_bind, bool_v, bool_zero, ite_not]
    refine Sim.ite Iff.rfl (fun _ => ?_) fun _ => Sim.ite Iff.rfl (fun _ => ?_) fun _ => ?_
    · refine (sim_getNext root).bind fun n _ ⟨e, hn⟩ => e ▸ ?_
      refine (sim_delta ext n).bind fun d _ ⟨e, hd⟩ => ?_
      rw [e]
      simp only [gt_ssize hd int_s0 (by decide) (by decide), lift_some, pure_bind, bool_v, bool_zero, ite_not]
      refine Sim.ite Iff.rfl (fun _ => ?_) fun _ => ?_
      · refine (ihr n G hn).bind fun b _ ⟨e, hb⟩ => ?_
        rw [e, conv_same]
        exact (sim_setNext root hb).bind fun _ _ _ => simE_last (ihl root G hr)
      · exact simE_last (ihl root G hr)
    · refine (sim_getPrev root).bind fun n _ ⟨e, hn⟩ => e ▸ ?_
      refine (sim_delta ext n).bind fun d _ ⟨e, hd⟩ => ?_
      rw [e]
      simp only [lt_ssize hd int_s0 (by decide) (by decide), lift_some, pure_bind, bool_v, bool_zero, ite_not]
      refine Sim.ite Iff.rfl (fun _ => ?_) fun _ => ?_
      · refine (ihl n G hn).bind fun b _ ⟨e, hb⟩ => ?_
        rw [e, conv_same]
        exact (sim_setPrev root hb).bind fun _ _ _ => simE_last (ihr root G hr)
      · exact simE_last (ihr root G hr)
    · have fin : SimE G (onNodes (getIndex root) >>= fun j => onNodes (setIndex root (sizeT (j + 1))) >>= fun _ => Pure.pure root)
          (bget (root + nodIndex) >>= fun x => bset (root + nodIndex) (sizeT (x + 1)) >>= fun _ => Pure.pure (Val.mk tNode root)) PNode :=
        (sim_getIndex root).bind fun j _ ⟨e, hj⟩ => e ▸ (sim_setIndex root (t_sizeT_lt' _)).bind fun _ _ _ => sim_root hr
      have fin2 : SimE G (onNodes (getNext root) >>= fun n => if n = 0 then (onNodes (getIndex root) >>= fun j => onNodes (setIndex root (sizeT (j + 1))) >>= fun _ => Pure.pure root) else
            onNodes (getIndex n) >>= fun i => onNodes (getIndex root) >>= fun j => if i > j then
              (onNodes (setIndex root i) >>= fun _ => onNodes (getIndex root) >>= fun j => onNodes (setIndex root (sizeT (j + 1))) >>= fun _ => Pure.pure root)
              else (onNodes (getIndex root) >>= fun j => onNodes (setIndex root (sizeT (j + 1))) >>= fun _ => Pure.pure root))
          (bget (root + nodNext) >>= fun n => if n = 0 then (bget (root + nodIndex) >>= fun x => bset (root + nodIndex) (sizeT (x + 1)) >>= fun _ => Pure.pure (Val.mk tNode root)) else
            bget (n + nodIndex) >>= fun i => bget (root + nodIndex) >>= fun j => if i > j then
              (bset (root + nodIndex) i >>= fun _ => bget (root + nodIndex) >>= fun x => bset (root + nodIndex) (sizeT (x + 1)) >>= fun _ => Pure.pure (Val.mk tNode root))
              else (bget (root + nodIndex) >>= fun x => bset (root + nodIndex) (sizeT (x + 1)) >>= fun _ => Pure.pure (Val.mk tNode root))) PNode := by
        refine (sim_getNext root).bind fun n _ ⟨e, hn⟩ => e ▸ Sim.ite Iff.rfl (fun _ => fin) fun _ => ?_
        refine (sim_getIndex n).bind fun i _ ⟨e, hi⟩ => e ▸ ?_
        refine (sim_getIndex root).bind fun j _ ⟨e, hj⟩ => e ▸ Sim.ite Iff.rfl (fun _ => ?_) fun _ => fin
        exact (sim_setIndex root hi).bind fun _ _ _ => fin
      refine (sim_setIndex root zero_lt_size).bind fun _ _ _ => ?_
      refine (sim_getPrev root).bind fun n _ ⟨e, hn⟩ => e ▸ Sim.ite Iff.rfl (fun _ => ?_) fun _ => ?_
      · exact fin2
      refine (sim_getIndex n).bind fun i _ ⟨e, hi⟩ => e ▸ ?_
      refine (sim_getIndex root).bind fun j _ ⟨e, hj⟩ => e ▸ Sim.ite Iff.rfl (fun _ => ?_) fun _ => ?_
      · exact (sim_setIndex root hi).bind fun _ _ _ => fin2
      · exact fin2
  · intro g ih root G hr
    rw [run_fun rfl (show funs _ = some f_tommy_tree_rotate_right from rfl)]
    unfold f_tommy_tree_rotate_right
    simp only [Stmt.list]
    csimp
    simp only [onNodes_bind]
    refine (sim_getPrev root).bind fun n _ ⟨e, hn⟩ => e ▸ ?_
    refine (sim_getNext n).bind fun c _ ⟨e, hc⟩ => e ▸ ?_
    refine (sim_setPrev root hc).bind fun _ _ _ => ?_
    refine (ih root G hr).bind fun b _ ⟨e, hb⟩ => ?_
    rw [e, conv_same]
    refine (sim_setNext n hb).bind fun _ _ _ => ?_
    exact simE_last (ih n G hn)

end Tommy.C
