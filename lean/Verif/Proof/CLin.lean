import Verif.Proof.CLoop
import Verif.Proof.CBits
import Verif.Proof.CTbl
/-! The functions of tommyhashlin.c and tommyhashlin.h. -/
set_option autoImplicit false
set_option linter.unusedSimpArgs false
namespace Tommy.C
open Src
variable [Arch] (ext : Ext)

abbrev tLin : CTy := .ptr (.struct "tommy_hashlin_struct")

@[csem] theorem field_linBucket : field structs "tommy_hashlin_struct" "bucket" = some (.arr (.ptr tNode) sizeBit, 0) := by cases ‹Arch› <;> rfl
@[csem] theorem field_linMax : field structs "tommy_hashlin_struct" "bucket_max" = some (.usize, linMax) := by cases ‹Arch› <;> rfl
@[csem] theorem field_linMask : field structs "tommy_hashlin_struct" "bucket_mask" = some (.usize, linMask) := by cases ‹Arch› <;> rfl
@[csem] theorem field_linLowMax : field structs "tommy_hashlin_struct" "low_max" = some (.usize, linLowMax) := by cases ‹Arch› <;> rfl
@[csem] theorem field_linLowMask : field structs "tommy_hashlin_struct" "low_mask" = some (.usize, linLowMask) := by cases ‹Arch› <;> rfl
@[csem] theorem field_linSplit : field structs "tommy_hashlin_struct" "split" = some (.usize, linSplit) := by cases ‹Arch› <;> rfl
@[csem] theorem field_linCount : field structs "tommy_hashlin_struct" "count" = some (.usize, linCount) := by cases ‹Arch› <;> rfl
@[csem] theorem field_linBit : field structs "tommy_hashlin_struct" "bucket_bit" = some (.u32, linBit) := by cases ‹Arch› <;> rfl
@[csem] theorem field_linState : field structs "tommy_hashlin_struct" "state" = some (.u32, linState) := by cases ‹Arch› <;> rfl

/-! ### Arrays -/

@[csem] theorem int_lit (n : Nat) (h : n < 2 ^ 31) : (Val.mk .s32 n).int = n := int_s32 h
omit [Arch] in
@[csem] theorem inB (n m : Nat) : (0 ≤ (n : Int) ∧ (n : Int) < (m : Int)) = (n < m) := by apply propext; omega
@[csem] theorem zero_lt_sizeBit : (0 < sizeBit) = True := by apply propext; simp only [iff_true]; unfold sizeBit; cases ‹Arch› <;> decide
@[csem] theorem bseg_eq (t i : Nat) : bseg t i = if i < sizeBit then bget (t + ptrSize * i) else fail := by
  funext w; unfold bseg; split <;> rfl
@[csem] theorem bsetSeg_eq (t i p : Nat) : bsetSeg t i p = if i < sizeBit then bset (t + ptrSize * i) p else fail := by
  funext w; unfold bsetSeg; split <;> rfl

attribute [csem] Int.toNat_natCast Nat.add_zero Nat.zero_add Nat.mul_zero

omit [Arch] in
@[csem] theorem getElem1 {α : Type} (a b : α) (l : List α) : (a :: b :: l)[1]? = some b := rfl
omit [Arch] in
@[csem] theorem replicate2 {α : Type} (a : α) : List.replicate 2 a = [a, a] := rfl

theorem keeps_seg (t i : Nat) : Keeps (fun v => v < 2 ^ sizeBit) (bseg t i) := by
  intro w hw a w' e
  unfold bseg at e
  split at e
  · exact keeps_get _ w hw a w' e
  · cases e

@[csem] theorem sizeT_lt' (n : Nat) : (Tommy.sizeT n < 2 ^ sizeBit) = True := eq_true (Nat.mod_lt _ (Nat.two_pow_pos _))
@[csem] theorem and_lt' (a b : Nat) (h : b < 2 ^ sizeBit) : (a &&& b < 2 ^ sizeBit) = True := by simp only [Nat.and_lt_two_pow _ h]

omit [Arch] in
theorem or_one_ne (n : Nat) : n ||| 1 ≠ 0 := by
  have := Nat.right_le_or (n := n) (m := 1)
  omega

theorem or_one_lt {n : Nat} (h : n < 2 ^ sizeBit) : n ||| 1 < 2 ^ sizeBit :=
  Nat.or_lt_two_pow h (Nat.one_lt_two_pow bits_ne)

@[csem] theorem run_hashlin_pos (s : CTy) (t pos : Nat) (h : pos < 2 ^ sizeBit) :
    run ext "tommy_hashlin_pos" [⟨.ptr s, t⟩, ⟨.usize, pos⟩] = (do let v ← bhashlinPos t pos; return ⟨.ptr tNode, v⟩) := by
  rw [run_fun rfl (show funs _ = some f_tommy_hashlin_pos from rfl)]
  unfold bhashlinPos f_tommy_hashlin_pos
  simp only [Stmt.list]
  csimp [name_ilog2 _ (show ("bsr" == "tommy_ilog2_u32" || "bsr" == "tommy_ilog2_u64") = false from rfl),
    name_ilog2 _ (show ("hashlin" == "tommy_ilog2_u32" || "hashlin" == "tommy_ilog2_u64") = false from rfl),
    name_ilog2 _ (show ("pos" == "tommy_ilog2_u32" || "pos" == "tommy_ilog2_u64") = false from rfl),
    run_ilog2 ext (or_one_lt h) (or_one_ne _)]

theorem keeps_linPos (t pos : Nat) : Keeps (fun _ => True) (bhashlinPos t pos) :=
  (keeps_seg _ _).bind fun _ _ => Keeps.pure trivial

theorem impl_hashlin_bucket_ref (s : CTy) (t hash : Nat) : Impl (fun a b => b = ⟨.ptr tNode, a⟩) (bhashlinBucketRef t hash)
    (run ext "tommy_hashlin_bucket_ref" [⟨.ptr s, t⟩, ⟨.usize, hash⟩]) := by
  rw [run_fun rfl (show funs _ = some f_tommy_hashlin_bucket_ref from rfl)]
  unfold bhashlinBucketRef f_tommy_hashlin_bucket_ref
  simp only [Stmt.list]
  csimp
  refine Impl.same (keeps_get _) fun lm h1 => Impl.same (keeps_get _) fun m h2 => Impl.same (keeps_get _) fun sp h3 => ?_
  csimp [h1, h2]
  split
  · exact Impl.last (keeps_linPos _ _) fun _ _ => rfl
  · exact Impl.last (keeps_linPos _ _) fun _ _ => rfl

theorem impl_hashlin_bucket (s : CTy) (t hash : Nat) : Impl (fun a b => b = ⟨tNode, a⟩) (bhashlinBucket t hash)
    (run ext "tommy_hashlin_bucket" [⟨.ptr s, t⟩, ⟨.usize, hash⟩]) := by
  rw [run_fun rfl (show funs _ = some f_tommy_hashlin_bucket from rfl)]
  unfold bhashlinBucket f_tommy_hashlin_bucket
  simp only [Stmt.list]
  csimp
  refine Impl.bind (impl_hashlin_bucket_ref ext _ _ _) ?_
  rintro r _ rfl
  csimp
  exact Impl.last (keeps_get _) fun _ _ => rfl

@[csem] theorem run_hashlin_count (t : CTy) (p : Nat) :
    run ext "tommy_hashlin_count" [⟨.ptr t, p⟩] = (do let v ← bhashlinCount p; return ⟨.usize, v⟩) := by
  rw [run_fun rfl (show funs _ = some f_tommy_hashlin_count from rfl)]
  unfold bhashlinCount f_tommy_hashlin_count
  simp only [Stmt.list]
  csimp

@[csem] theorem run_hashlin_usage (s : CTy) (p : Nat) :
    run ext "tommy_hashlin_memory_usage" [⟨.ptr s, p⟩] = (do let v ← bhashlinMemoryUsage p; return ⟨.usize, v⟩) := by
  rw [run_fun rfl (show funs _ = some f_tommy_hashlin_memory_usage from rfl)]
  unfold bhashlinMemoryUsage f_tommy_hashlin_memory_usage
  simp only [Stmt.list]
  csimp [sizeT_sum]

@[csem] theorem run_hashlin_stable (s : CTy) (p : Nat) :
    run ext "tommy_hashlin_stable" [⟨.ptr s, p⟩] = (do bhashlinStable p; return ⟨.void, 0⟩) := by
  rw [run_fun rfl (show funs _ = some f_tommy_hashlin_stable from rfl)]
  unfold bhashlinStable f_tommy_hashlin_stable linStable
  simp only [Stmt.list]
  csimp

theorem keeps_linStable (t : Nat) : Keeps (fun _ => True) (bhashlinStable t) := by
  unfold bhashlinStable; keeps

/-! ### init -/

/-- tommyhashlin.c:66-67 -/
def linInit : Stmt := .while (.bin .lt (.var "i") (.num 6))
  (.seq (.expr (.assign (.index (.arrow (.var "hashlin") "bucket") (.var "i")) (.index (.arrow (.var "hashlin") "bucket") (.num 0))))
    (.expr (.assignOp .add (.var "i") (.num 1))))

theorem impl_linInit (t k i : Nat) (hi : i + k = 6) :
    Impl (fun _ r => r = (.normal, [("i", .u32, [some 6]), ("hashlin", tLin, [some t])])) (bhashlinInitLoop t i k)
      (exec structs ext (run ext) linInit [("i", .u32, [some i]), ("hashlin", tLin, [some t])]) := by
  obtain ⟨W, hW⟩ : ∃ W, W = linInit := ⟨_, rfl⟩
  rw [← hW]
  unfold linInit at hW
  induction k generalizing i with
  | zero =>
    have h1 : ¬ i < 6 := by omega
    rw [exec_while ext _ hW]
    unfold bhashlinInitLoop
    csimp [h1]
    exact Impl.pure (by rw [show i = 6 by omega])
  | succ k ih =>
    have h1 : i < 6 := by omega
    have h2 : (i + 1) % 4294967296 = i + 1 := Nat.mod_eq_of_lt (by omega)
    have h3 : i < sizeBit := Nat.lt_trans h1 (by unfold sizeBit; cases ‹Arch› <;> decide)
    rw [exec_while ext _ hW]
    unfold bhashlinInitLoop
    csimp [h1, h2, h3]
    refine Impl.same (keeps_get _) fun b _ => Impl.same (keeps_set _ _) fun _ _ => ?_
    exact ih (i + 1) (by omega)

theorem impl_hashlin_init (s : CTy) (p : Nat) : Impl (fun _ b => b = ⟨.void, 0⟩) (bhashlinInit p)
    (run ext "tommy_hashlin_init" [⟨.ptr s, p⟩]) := by
  rw [run_fun rfl (show funs _ = some f_tommy_hashlin_init from rfl)]
  unfold bhashlinInit f_tommy_hashlin_init linBIT
  have hl := impl_linInit ext p 5 1 rfl
  generalize hG : Stmt.for _ _ _ _ = G
  simp only [Stmt.list]
  csimp
  refine Impl.same (keeps_set32 _ _) fun _ _ => Impl.same (keeps_get32 _) fun x _ => Impl.same (keeps_shl _) fun x hx => ?_
  refine Impl.same (keeps_set _ _) fun _ _ => Impl.same (keeps_get _) fun x hx => ?_
  csimp [hx]
  refine Impl.same (keeps_set _ _) fun _ _ => Impl.same (keeps_get _) fun x hx => Impl.same (keeps_calloc _ _) fun x hx => ?_
  refine Impl.same (keeps_set _ _) fun _ _ => ?_
  rw [← hG, exec_for]
  unfold linInit at hl
  generalize Stmt.while _ _ = W at hl ⊢
  csimp
  refine Impl.bind hl ?_
  rintro _ _ rfl
  csimp
  exact Impl.same (keeps_linStable _) fun _ _ => Impl.last (keeps_set _ _) fun _ _ => rfl

/-! ### done -/

theorem shlS_u32 (n : Nat) : lift (binop .shl ⟨.ssize, 1⟩ ⟨.u32, n⟩) = (do let x ← bshlS n; Pure.pure ⟨.ssize, x⟩ : BM Val) := by
  have e1 : (Val.mk .ssize 1).int = 1 := by
    unfold Val.int CTy.signed CTy.bits sizeBit; cases ‹Arch› <;> decide
  have hb : 1 ≤ sizeBit := by unfold sizeBit; cases ‹Arch› <;> decide
  simp only [binop, promote, conv_same, int_u32, e1, show CTy.ssize.bits = sizeBit from rfl]
  by_cases h : n < sizeBit
  · rw [if_neg (by omega)]
    simp only [Int.toNat_natCast, Int.one_mul, result, CTy.signed, if_true, show CTy.ssize.bits = sizeBit from rfl]
    funext w
    by_cases h' : n + 1 < sizeBit
    · have h2 : 2 ^ n < 2 ^ (sizeBit - 1) := Nat.pow_lt_pow_right (by decide) (by omega)
      have h3 : 2 ^ n < 2 ^ sizeBit := Nat.pow_lt_pow_right (by decide) (by omega)
      rw [if_pos ⟨by clear * -; generalize 2 ^ n = A; generalize 2 ^ (sizeBit - 1) = B; omega, Int.ofNat_lt.2 h2⟩, toNat_mod, Nat.mod_eq_of_lt h3]
      simp only [bshlS, bind, StateT.bind, h', if_true]
      rfl
    · have h2 : 2 ^ (sizeBit - 1) ≤ 2 ^ n := Nat.pow_le_pow_right (by decide) (by omega)
      rw [if_neg fun h => absurd (Int.ofNat_lt.1 h.2) (Nat.not_lt.2 h2)]
      simp only [bshlS, bind, StateT.bind, h', if_false]
      rfl
  · rw [if_pos (by omega)]
    funext w
    simp only [bshlS, bind, StateT.bind, show ¬ n + 1 < sizeBit by omega, if_false]
    rfl

attribute [csem] shlS_u32

theorem keeps_shlS (n : Nat) : Keeps (fun v => v < 2 ^ (sizeBit - 1)) (bshlS n) := by
  intro w hw a w' e
  unfold bshlS at e
  split at e
  · cases e; exact ⟨hw, Nat.pow_lt_pow_right (by decide) (by omega)⟩
  · cases e

theorem int_ssize {v : Nat} (h : v < 2 ^ (sizeBit - 1)) : (Val.mk .ssize v).int = v := if_neg (fun h' => absurd h'.2 (Nat.not_le.2 h))

@[csem] theorem elem_ssize (a : Nat) {n : Nat} (h : n < 2 ^ (sizeBit - 1)) : elemAddr a ptrSize ⟨.ssize, n⟩ = padd a n := by
  unfold elemAddr padd
  rw [int_ssize h, ← Int.natCast_mul, toNat_add_mod]

/-- tommyhashlin.c:80-83 -/
def linDone : Stmt := .while (.bin .lt (.var "i") (.arrow (.var "hashlin") "bucket_bit"))
  (.seq (.block (.list [
    .declInit (.ptr (.ptr (.struct "tommy_node_struct"))) "segment" (.index (.arrow (.var "hashlin") "bucket") (.var "i")),
    .expr (.call "free" (.cons (.addr (.index (.var "segment") (.bin .shl (.cast .ssize (.num 1)) (.var "i")))) .nil))]))
    (.expr (.assignOp .add (.var "i") (.num 1))))

theorem impl_linDone (t i : Nat) : Impl (fun _ r => r.1 = .normal) (bhashlinDoneLoop t i)
      (exec structs ext (run ext) linDone [("i", .u32, [some i]), ("hashlin", tLin, [some t])]) := by
  obtain ⟨W, hW⟩ : ∃ W, W = linDone := ⟨_, rfl⟩
  rw [← hW]
  unfold linDone at hW
  simp only [Stmt.list] at hW
  revert i
  refine bhashlinDoneLoop.fixpoint_induct t (fun h => ∀ i, Impl _ (h i) (exec structs ext (run ext) W [("i", .u32, [some i]), ("hashlin", tLin, [some t])])) ?_ ?_
  · exact Lean.Order.admissible_pi_apply _ fun i => Impl.adm _ _
  · intro g ih i
    rw [exec_while ext _ hW]
    csimp
    refine Impl.same (keeps_get32 _) fun b hb => Impl.ite Iff.rfl (fun h => ?_) fun h => Impl.pure rfl
    have h2 : (i + 1) % 4294967296 = i + 1 := Nat.mod_eq_of_lt (by omega)
    refine Impl.ite Iff.rfl (fun h => ?_) fun h => Impl.fail
    refine Impl.same (keeps_get _) fun s hs => Impl.same (keeps_shlS _) fun x hx => ?_
    csimp [hx, h2]
    exact Impl.same (keeps_free _) fun _ _ => ih (i + 1)

theorem impl_hashlin_done (s : CTy) (p : Nat) : Impl (fun _ b => b = ⟨.void, 0⟩) (bhashlinDone p)
    (run ext "tommy_hashlin_done" [⟨.ptr s, p⟩]) := by
  rw [run_fun rfl (show funs _ = some f_tommy_hashlin_done from rfl)]
  unfold bhashlinDone f_tommy_hashlin_done linBIT
  have hl := impl_linDone ext p 6
  generalize hG : Stmt.for _ _ _ _ = G
  simp only [Stmt.list]
  csimp
  refine Impl.same (keeps_get _) fun b _ => Impl.same (keeps_free _) fun _ _ => ?_
  rw [← hG, exec_for]
  unfold linDone at hl
  generalize Stmt.while _ _ = W at hl ⊢
  csimp
  rw [← bind_pure (bhashlinDoneLoop _ _)]
  refine Impl.bind hl ?_
  rintro _ ⟨c, e⟩ h
  cases h
  exact Impl.pure rfl

/-! ### grow -/

@[csem] theorem ne_usize_lit (a n : Nat) (h : n < 2 ^ 31) : binop .ne ⟨.usize, a⟩ ⟨.s32, n⟩ = some (bool (a ≠ n)) := by bin [conv_usize_lit n h]

@[csem] theorem conv_usize_bool (c : Bool) : conv .usize (bool c) = ⟨.usize, if c then 1 else 0⟩ := by
  cases c <;> exact conv_usize_lit _ (by decide)

/-- The variables of the loop of grow. -/
def growEnv (t target : Nat) : Env := [("split_target", .usize, [some target]), ("hashlin", tLin, [some t])]

/-- The variables of the inner loop. -/
def linFlushEnv (t target s0 s1 mask j : Nat) : Env :=
  ("mask", .usize, [some mask]) :: ("j", tNode, [some j]) :: ("split", .arr (.ptr tNode) 2, [some s0, some s1]) :: growEnv t target

/-- tommyhashlin.c:152-162 -/
def linFlush : Stmt := .while (.var "j")
  (.block (.list [
    .declInit (.ptr (.struct "tommy_node_struct")) "j_next" (.arrow (.var "j") "next"),
    .declInit .usize "pos" (.bin .ne (.bin .and (.arrow (.var "j") "index") (.var "mask")) (.num 0)),
    .ite (.deref (.index (.var "split") (.var "pos")))
      (.expr (.call "tommy_list_insert_tail_not_empty" (.cons (.deref (.index (.var "split") (.var "pos"))) (.cons (.var "j") .nil))))
      (.expr (.call "tommy_list_insert_first" (.cons (.index (.var "split") (.var "pos")) (.cons (.var "j") .nil)))),
    .expr (.assign (.var "j") (.var "j_next"))]))

theorem impl_linFlush (t target s0 s1 mask j : Nat) :
    Impl (fun _ r => r = (.normal, linFlushEnv t target s0 s1 mask 0)) (bflushLoop (fun index => if index &&& mask = 0 then s0 else s1) j)
      (exec structs ext (run ext) linFlush (linFlushEnv t target s0 s1 mask j)) := by
  obtain ⟨W, hW⟩ : ∃ W, W = linFlush := ⟨_, rfl⟩
  rw [← hW]
  unfold linFlush at hW
  simp only [Stmt.list] at hW
  revert j
  refine bflushLoop.fixpoint_induct _ (fun h => ∀ j, Impl _ (h j) (exec structs ext (run ext) W (linFlushEnv t target s0 s1 mask j))) ?_ ?_
  · exact Lean.Order.admissible_pi_apply _ fun i => Impl.adm _ _
  · intro g ih j
    rw [exec_while ext _ hW]
    unfold linFlushEnv growEnv
    csimp
    refine Impl.ite Iff.rfl (fun h => Impl.pure (by rw [h])) fun h => ?_
    refine Impl.same (keeps_get _) fun n _ => Impl.same (keeps_get _) fun x _ => ?_
    by_cases hx : x &&& mask = 0
    · simp only [hx, not_true_eq_false, decide_false, Bool.false_eq_true, if_false, if_true]
      csimp
      simp only [get_again_ite']
      refine Impl.same (keeps_get _) fun l _ => Impl.ite Iff.rfl (fun h => ?_) fun h => ?_
      · exact Impl.same (keeps_listInsertFirst _ _) fun _ _ => ih n
      · exact Impl.same (keeps_listInsertTailNotEmpty _ _) fun _ _ => ih n
    · simp only [hx, not_false_eq_true, decide_true, Bool.false_eq_true, if_false, if_true]
      csimp
      simp only [get_again_ite']
      refine Impl.same (keeps_get _) fun l _ => Impl.ite Iff.rfl (fun h => ?_) fun h => ?_
      · exact Impl.same (keeps_listInsertFirst _ _) fun _ _ => ih n
      · exact Impl.same (keeps_listInsertTailNotEmpty _ _) fun _ _ => ih n

/-- tommyhashlin.c:130-174 -/
def linGrow' : Stmt := .while (.bin .lt (.bin .add (.arrow (.var "hashlin") "split") (.arrow (.var "hashlin") "low_max")) (.var "split_target"))
  (.block (.list [
    .decl (.arr (.ptr (.ptr (.struct "tommy_node_struct"))) 2) "split",
    .decl (.ptr (.struct "tommy_node_struct")) "j",
    .decl .usize "mask",
    .expr (.assign (.index (.var "split") (.num 0)) (.call "tommy_hashlin_pos" (.cons (.var "hashlin") (.cons (.arrow (.var "hashlin") "split") .nil)))),
    .expr (.assign (.index (.var "split") (.num 1)) (.call "tommy_hashlin_pos" (.cons (.var "hashlin") (.cons (.bin .add (.arrow (.var "hashlin") "split") (.arrow (.var "hashlin") "low_max")) .nil)))),
    .expr (.assign (.var "j") (.deref (.index (.var "split") (.num 0)))),
    .expr (.assign (.deref (.index (.var "split") (.num 0))) (.num 0)),
    .expr (.assign (.deref (.index (.var "split") (.num 1))) (.num 0)),
    .expr (.assign (.var "mask") (.arrow (.var "hashlin") "low_max")),
    linFlush,
    .expr (.assignOp .add (.arrow (.var "hashlin") "split") (.num 1)),
    .ite (.bin .eq (.arrow (.var "hashlin") "split") (.arrow (.var "hashlin") "low_max"))
      (.block (.list [
        .expr (.call "tommy_hashlin_stable" (.cons (.var "hashlin") .nil)),
        .break]))
      .skip]))

theorem impl_linGrow (t target : Nat) : Impl (fun _ r => r = (.normal, growEnv t target)) (bhashlinGrowLoop t target)
      (exec structs ext (run ext) linGrow' (growEnv t target)) := by
  obtain ⟨W, hW⟩ : ∃ W, W = linGrow' := ⟨_, rfl⟩
  rw [← hW]
  have hn := impl_linFlush ext t target
  unfold linGrow' at hW
  generalize linFlush = N at hW hn
  simp only [Stmt.list] at hW
  refine bhashlinGrowLoop.fixpoint_induct t target (fun h => Impl _ h (exec structs ext (run ext) W (growEnv t target))) ?_ ?_
  · exact Impl.adm _ _
  · intro g ih
    rw [exec_while ext _ hW]
    unfold growEnv
    csimp
    refine Impl.same (keeps_get _) fun sp _ => Impl.same (keeps_get _) fun lm _ => Impl.ite Iff.rfl (fun h => ?_) fun h => Impl.pure rfl
    refine Impl.same (keeps_get _) fun sp hs => ?_
    csimp [hs]
    refine Impl.same (keeps_linPos _ _) fun s0 _ => Impl.same (keeps_get _) fun sp hs => Impl.same (keeps_get _) fun lm _ => ?_
    refine Impl.same (keeps_linPos _ _) fun s1 _ => Impl.same (keeps_get _) fun j hj => Impl.same (keeps_set _ _) fun _ _ => ?_
    refine Impl.same (keeps_set _ _) fun _ _ => Impl.same (keeps_get _) fun mask hm => ?_
    refine Impl.bind (hn s0 s1 mask j) ?_
    rintro _ _ rfl
    unfold linFlushEnv growEnv
    csimp
    refine Impl.same (keeps_get _) fun sp hs => Impl.same (keeps_set _ _) fun _ _ => Impl.same (keeps_get _) fun sp hs => ?_
    refine Impl.same (keeps_get _) fun lm hs => Impl.ite Iff.rfl (fun h => ?_) fun h => ih
    exact Impl.last (keeps_linStable _) fun _ _ => rfl

/-- tommyhashlin.c:123-175 -/
def linGrowRest : Stmt := .ite (.bin .eq (.arrow (.var "hashlin") "state") (.num 1))
  (.block (.list [
    .declInit .usize "split_target" (.bin .mul (.num 2) (.arrow (.var "hashlin") "count")),
    linGrow']))
  .skip

theorem impl_linGrowRest (t : Nat) : Impl (fun _ r => r = (.normal, [("hashlin", tLin, [some t])]))
    (do
      let state ← bget32 (t + linState)
      if state = linGrow then
        let count ← bget (t + linCount)
        bhashlinGrowLoop t (Tommy.sizeT (2 * count))
      else
        return ())
    (exec structs ext (run ext) linGrowRest [("hashlin", tLin, [some t])]) := by
  have hl := impl_linGrow ext t
  unfold linGrowRest linGrow
  generalize linGrow' = W at hl ⊢
  simp only [Stmt.list]
  csimp
  refine Impl.same (keeps_get32 _) fun st _ => Impl.ite Iff.rfl (fun h => ?_) fun h => Impl.pure rfl
  refine Impl.same (keeps_get _) fun n _ => ?_
  rw [← bind_pure (bhashlinGrowLoop _ _)]
  refine Impl.bind (hl _) ?_
  rintro _ _ rfl
  exact Impl.pure rfl

omit [Arch] in
/-- A test of the model that the C code does not do. -/
theorem Impl.check {α β γ : Type} {P : α → β → Prop} {p : γ → Prop} {x : BM γ} {f : γ → BM α} {y : BM β}
    (hx : ∀ w a w', x w = some (a, w') → w' = w ∧ p a) (h : ∀ a, p a → Impl P (f a) y) : Impl P (x >>= f) y := by
  intro w hw a w' e
  obtain ⟨c, w1, e1, e2⟩ := bind_inv e
  obtain ⟨rfl, hp⟩ := hx w c w1 e1
  exact h c hp w1 hw a w' e2

theorem get_same (p : Nat) : ∀ w a w', bget p w = some (a, w') → w' = w := by
  intro w a w' e
  unfold bget bgetN at e
  split at e
  · cases e; rfl
  · cases e

theorem psub_check (p x : Nat) : ∀ w a w', bpsub p x w = some (a, w') → w' = w ∧ (a = psub p x ∧ x < 2 ^ (sizeBit - 1)) := by
  intro w a w' e
  unfold bpsub at e
  split at e
  · cases e; exact ⟨rfl, rfl, by assumption⟩
  · cases e

theorem conv_ssize_usize {n : Nat} (h : n < 2 ^ sizeBit) : conv .ssize ⟨.usize, n⟩ = ⟨.ssize, n⟩ := by
  unfold conv
  rw [if_neg nofun, if_neg (fun h => nomatch h.2), int_usize, toNat_mod]
  exact congrArg _ (Nat.mod_eq_of_lt h)

theorem half_le : 2 ^ sizeBit = 2 * 2 ^ (sizeBit - 1) := by
  have : sizeBit = sizeBit - 1 + 1 := by have := bits_ne; omega
  conv => lhs; rw [this, Nat.pow_succ, Nat.mul_comm]

/-- `&segment[-(tommy_ptrdiff_t)low_max]` -/
theorem neg_elem (p : Nat) {n : Nat} (h : n < 2 ^ (sizeBit - 1)) : ∃ x, result (promote CTy.ssize) (-(Val.mk .ssize n).int) = some x ∧
    elemAddr p ptrSize x = psub p n := by
  have h2 := half_le
  refine ⟨⟨.ssize, ((-(n : Int)) % (2 ^ sizeBit : Nat)).toNat⟩, ?_, ?_⟩
  · rw [int_ssize h]
    unfold result promote
    simp only [CTy.signed, if_true, show CTy.ssize.bits = sizeBit from rfl]
    rw [if_pos]
    generalize 2 ^ (sizeBit - 1) = A at *
    omega
  · have e : (Val.mk .ssize ((-(n : Int)) % (2 ^ sizeBit : Nat)).toNat).int = -(n : Int) := by
      have h0 := pow_pos'
      unfold Val.int
      simp only [CTy.signed, show CTy.ssize.bits = sizeBit from rfl, true_and]
      by_cases hn : n = 0
      · subst hn
        rw [if_neg] <;> simp
      · have hm : (-(n : Int)) % (2 ^ sizeBit : Nat) = (2 ^ sizeBit - n : Nat) := by
          rw [← Int.add_emod_right, show -(n : Int) + (2 ^ sizeBit : Nat) = (2 ^ sizeBit - n : Nat) by omega, ← Int.natCast_emod,
            Nat.mod_eq_of_lt (by omega)]
        rw [hm, Int.toNat_natCast, if_pos (by omega)]
        have e2 : ((2 : Int) ^ sizeBit) = ((2 ^ sizeBit : Nat) : Int) := by simp
        rw [e2]
        generalize 2 ^ sizeBit = M at *
        generalize 2 ^ (sizeBit - 1) = A at *
        omega
    unfold elemAddr psub subT
    rw [e]
    have h0 := pow_pos'
    have hq := Nat.mod_lt (ptrSize * n) h0
    have hd := Nat.div_add_mod (ptrSize * n) (2 ^ sizeBit)
    have : (p : Int) + ptrSize * -(n : Int) = ((p + 2 ^ sizeBit - ptrSize * n % 2 ^ sizeBit : Nat) : Int) +
        (2 ^ sizeBit : Nat) * (-((ptrSize * n / 2 ^ sizeBit : Nat) : Int) - 1) := by
      rw [Int.mul_neg, ← Int.natCast_mul, Int.mul_sub, Int.mul_neg, ← Int.natCast_mul, Int.mul_one]
      generalize 2 ^ sizeBit = M at *
      generalize ptrSize * n = K at *
      generalize M * (K / M) = L at *
      omega
    rw [this, Int.add_mul_emod_self_left, toNat_mod]

set_option maxRecDepth 4096 in
theorem impl_hashlin_grow_step (s : CTy) (t : Nat) : Impl (fun _ b => b = ⟨.void, 0⟩) (bhashlinGrowStep t)
    (run ext "hashlin_grow_step" [⟨.ptr s, t⟩]) := by
  rw [run_fun rfl (show funs _ = some f_hashlin_grow_step from rfl)]
  have hr := impl_linGrowRest ext t
  unfold bhashlinGrowStep bhashlinGrowStart f_hashlin_grow_step linStable
  unfold linGrowRest linGrow' linFlush at hr
  generalize Stmt.ite (.bin .eq _ (.num 1)) _ _ = R at hr ⊢
  generalize (do
      let state ← bget32 (t + linState)
      if state = linGrow then
        let count ← bget (t + linCount)
        bhashlinGrowLoop t (Tommy.sizeT (2 * count))
      else
        return () : BM Unit) = H at hr ⊢
  unfold linGrow
  simp only [Stmt.list]
  have hend : Impl (fun _ b => b = ⟨.void, 0⟩) H (do
      let x ← exec structs ext (run ext) R [("hashlin", tLin, [some t])]
      match x.1 with
      | Ctl.ret (some v) => Pure.pure (conv .void v)
      | Ctl.normal | Ctl.ret none => Pure.pure ⟨.void, 0⟩
      | Ctl.brk => fail) := by
    rw [← bind_pure H]
    refine Impl.bind hr ?_
    rintro _ _ rfl
    exact Impl.pure rfl
  csimp
  refine Impl.same (keeps_get32 _) fun st _ => ?_
  by_cases h1 : st = 1
  · csimp [h1, false_and]
    refine Impl.skip (get_same _) fun n => Impl.skip (get_same _) fun max => ?_
    exact hend
  csimp [h1, true_and]
  refine Impl.same (keeps_get _) fun n _ => Impl.same (keeps_get _) fun max hm => ?_
  csimp [hm]
  refine Impl.ite Iff.rfl (fun h => ?_) fun h => hend
  refine Impl.same (keeps_get32 _) fun st _ => Impl.ite Iff.rfl (fun h => ?_) fun h => ?_
  swap
  · exact Impl.same (keeps_set32 _ _) fun _ _ => hend
  refine Impl.same (keeps_get _) fun max hm => Impl.same (keeps_set _ _) fun _ _ => Impl.same (keeps_get _) fun mask hm => ?_
  refine Impl.same (keeps_set _ _) fun _ _ => Impl.same (keeps_get _) fun lm hm => Impl.same (keeps_malloc _) fun seg _ => ?_
  refine Impl.same (keeps_get _) fun lm hm => Impl.check (psub_check _ _) ?_
  rintro _ ⟨rfl, hl⟩
  obtain ⟨x, e1, e2⟩ := neg_elem seg hl
  csimp [conv_ssize_usize hm, e1, e2]
  refine Impl.same (keeps_get32 _) fun bit hb => Impl.ite Iff.rfl (fun h => ?_) fun h => Impl.fail
  refine Impl.same (keeps_set _ _) fun _ _ => Impl.same (keeps_get32 _) fun bit hb => ?_
  refine Impl.same (keeps_set32 _ _) fun _ _ => Impl.same (keeps_get32 _) fun bit hb => Impl.same (keeps_shl _) fun max _ => ?_
  refine Impl.same (keeps_set _ _) fun _ _ => Impl.same (keeps_get _) fun max hm => ?_
  csimp [hm]
  refine Impl.same (keeps_set _ _) fun _ _ => Impl.same (keeps_set _ _) fun _ _ => Impl.same (keeps_set32 _ _) fun _ _ => ?_
  exact hend

/-! ### shrink -/

/-- tommyhashlin.c:210-243 -/
def linShrink' : Stmt := .while (.bin .gt (.bin .add (.arrow (.var "hashlin") "split") (.arrow (.var "hashlin") "low_max")) (.var "split_target"))
  (.block (.list [
    .decl (.arr (.ptr (.ptr (.struct "tommy_node_struct"))) 2) "split",
    .expr (.assignOp .sub (.arrow (.var "hashlin") "split") (.num 1)),
    .expr (.assign (.index (.var "split") (.num 0)) (.call "tommy_hashlin_pos" (.cons (.var "hashlin") (.cons (.arrow (.var "hashlin") "split") .nil)))),
    .expr (.assign (.index (.var "split") (.num 1)) (.call "tommy_hashlin_pos" (.cons (.var "hashlin") (.cons (.bin .add (.arrow (.var "hashlin") "split") (.arrow (.var "hashlin") "low_max")) .nil)))),
    .expr (.call "tommy_list_concat" (.cons (.index (.var "split") (.num 0)) (.cons (.index (.var "split") (.num 1)) .nil))),
    .ite (.bin .eq (.arrow (.var "hashlin") "split") (.num 0))
      (.block (.list [
        .decl (.ptr (.ptr (.struct "tommy_node_struct"))) "segment",
        .expr (.assignOp .sub (.arrow (.var "hashlin") "bucket_bit") (.num 1)),
        .expr (.assign (.arrow (.var "hashlin") "bucket_max") (.bin .shl (.cast .usize (.num 1)) (.arrow (.var "hashlin") "bucket_bit"))),
        .expr (.assign (.arrow (.var "hashlin") "bucket_mask") (.bin .sub (.arrow (.var "hashlin") "bucket_max") (.num 1))),
        .expr (.assign (.var "segment") (.index (.arrow (.var "hashlin") "bucket") (.arrow (.var "hashlin") "bucket_bit"))),
        .expr (.call "free" (.cons (.addr (.index (.var "segment") (.bin .shl (.cast .ssize (.num 1)) (.arrow (.var "hashlin") "bucket_bit")))) .nil)),
        .expr (.call "tommy_hashlin_stable" (.cons (.var "hashlin") .nil)),
        .break]))
      .skip]))

set_option maxRecDepth 4096 in
theorem impl_linShrink (t target : Nat) : Impl (fun _ r => r = (.normal, growEnv t target)) (bhashlinShrinkLoop t target)
      (exec structs ext (run ext) linShrink' (growEnv t target)) := by
  obtain ⟨W, hW⟩ : ∃ W, W = linShrink' := ⟨_, rfl⟩
  rw [← hW]
  unfold linShrink' at hW
  simp only [Stmt.list] at hW
  refine bhashlinShrinkLoop.fixpoint_induct t target (fun h => Impl _ h (exec structs ext (run ext) W (growEnv t target))) ?_ ?_
  · exact Impl.adm _ _
  · intro g ih
    rw [exec_while ext _ hW]
    unfold growEnv
    csimp
    refine Impl.same (keeps_get _) fun sp _ => Impl.same (keeps_get _) fun lm _ => Impl.ite Iff.rfl (fun h => ?_) fun h => Impl.pure rfl
    refine Impl.same (keeps_get _) fun sp hs => ?_
    csimp [hs]
    refine Impl.same (keeps_set _ _) fun _ _ => Impl.same (keeps_get _) fun sp hs => ?_
    csimp [hs]
    refine Impl.same (keeps_linPos _ _) fun s0 _ => Impl.same (keeps_get _) fun sp hs => Impl.same (keeps_get _) fun lm _ => ?_
    refine Impl.same (keeps_linPos _ _) fun s1 _ => Impl.same (keeps_listConcat _ _) fun _ _ => Impl.same (keeps_get _) fun sp hs => ?_
    refine Impl.ite Iff.rfl (fun h => ?_) fun h => ih
    refine Impl.same (keeps_get32 _) fun bit hb => ?_
    csimp [hb]
    refine Impl.same (keeps_set32 _ _) fun _ _ => Impl.same (keeps_get32 _) fun bit hb => Impl.same (keeps_shl _) fun max _ => ?_
    refine Impl.same (keeps_set _ _) fun _ _ => Impl.same (keeps_get _) fun max hm => ?_
    csimp [hm]
    refine Impl.same (keeps_set _ _) fun _ _ => Impl.same (keeps_get32 _) fun bit hb => Impl.ite Iff.rfl (fun h => ?_) fun h => Impl.fail
    refine Impl.same (keeps_get _) fun seg _ => Impl.same (keeps_get32 _) fun bit hb => Impl.same (keeps_shlS _) fun x hx => ?_
    csimp [hx]
    exact Impl.same (keeps_free _) fun _ _ => Impl.last (keeps_linStable _) fun _ _ => rfl

/-- tommyhashlin.c:204-244 -/
def linShrinkRest : Stmt := .ite (.bin .eq (.arrow (.var "hashlin") "state") (.num 2))
  (.block (.list [
    .declInit .usize "split_target" (.bin .mul (.num 8) (.arrow (.var "hashlin") "count")),
    linShrink']))
  .skip

theorem impl_linShrinkRest (t : Nat) : Impl (fun _ r => r = (.normal, [("hashlin", tLin, [some t])]))
    (do
      let state ← bget32 (t + linState)
      if state = linShrink then
        let count ← bget (t + linCount)
        bhashlinShrinkLoop t (Tommy.sizeT (8 * count))
      else
        return ())
    (exec structs ext (run ext) linShrinkRest [("hashlin", tLin, [some t])]) := by
  have hl := impl_linShrink ext t
  unfold linShrinkRest linShrink
  generalize linShrink' = W at hl ⊢
  simp only [Stmt.list]
  csimp
  refine Impl.same (keeps_get32 _) fun st _ => Impl.ite Iff.rfl (fun h => ?_) fun h => Impl.pure rfl
  refine Impl.same (keeps_get _) fun n _ => ?_
  rw [← bind_pure (bhashlinShrinkLoop _ _)]
  refine Impl.bind (hl _) ?_
  rintro _ _ rfl
  exact Impl.pure rfl

theorem impl_hashlin_shrink_step (s : CTy) (t : Nat) : Impl (fun _ b => b = ⟨.void, 0⟩) (bhashlinShrinkStep t)
    (run ext "hashlin_shrink_step" [⟨.ptr s, t⟩]) := by
  rw [run_fun rfl (show funs _ = some f_hashlin_shrink_step from rfl)]
  have hr := impl_linShrinkRest ext t
  unfold bhashlinShrinkStep bhashlinShrinkStart f_hashlin_shrink_step linStable linBIT
  unfold linShrinkRest linShrink' at hr
  generalize Stmt.ite (.bin .eq _ (.num 2)) _ _ = R at hr ⊢
  generalize (do
      let state ← bget32 (t + linState)
      if state = linShrink then
        let count ← bget (t + linCount)
        bhashlinShrinkLoop t (Tommy.sizeT (8 * count))
      else
        return () : BM Unit) = H at hr ⊢
  unfold linShrink
  simp only [Stmt.list]
  have hend : Impl (fun _ b => b = ⟨.void, 0⟩) H (do
      let x ← exec structs ext (run ext) R [("hashlin", tLin, [some t])]
      match x.1 with
      | Ctl.ret (some v) => Pure.pure (conv .void v)
      | Ctl.normal | Ctl.ret none => Pure.pure ⟨.void, 0⟩
      | Ctl.brk => fail) := by
    rw [← bind_pure H]
    refine Impl.bind hr ?_
    rintro _ _ rfl
    exact Impl.pure rfl
  csimp
  refine Impl.same (keeps_get32 _) fun st _ => ?_
  by_cases h1 : st = 2
  · csimp [h1, false_and]
    refine Impl.skip (get_same _) fun n => Impl.skip (get_same _) fun max => ?_
    exact hend
  csimp [h1, true_and]
  refine Impl.same (keeps_get _) fun n _ => Impl.same (keeps_get _) fun max hm => ?_
  csimp [hm]
  refine Impl.ite Iff.rfl (fun h => ?_) fun h => hend
  refine Impl.same (keeps_get32 _) fun bit _ => Impl.ite Iff.rfl (fun h => ?_) fun h => hend
  refine Impl.same (keeps_get32 _) fun st _ => Impl.ite Iff.rfl (fun h => ?_) fun h => ?_
  swap
  · exact Impl.same (keeps_set32 _ _) fun _ _ => hend
  refine Impl.same (keeps_get _) fun max hm => ?_
  csimp [hm]
  refine Impl.same (keeps_set _ _) fun _ _ => Impl.same (keeps_get _) fun mask hm => ?_
  csimp [hm]
  refine Impl.same (keeps_set _ _) fun _ _ => Impl.same (keeps_get _) fun lm hm => ?_
  exact Impl.same (keeps_set _ _) fun _ _ => Impl.same (keeps_set32 _ _) fun _ _ => hend

/-! ### Insert, remove, search and foreach -/

theorem impl_hashlin_insert (s u v : CTy) (t node data h : Nat) : Impl (fun _ b => b = ⟨.void, 0⟩) (bhashlinInsert t node data h)
    (run ext "tommy_hashlin_insert" [⟨.ptr s, t⟩, ⟨.ptr u, node⟩, ⟨.ptr v, data⟩, ⟨.usize, h⟩]) := by
  rw [run_fun rfl (show funs _ = some f_tommy_hashlin_insert from rfl)]
  unfold bhashlinInsert f_tommy_hashlin_insert
  simp only [Stmt.list]
  csimp
  refine Impl.bind (impl_hashlin_bucket_ref ext _ _ _) ?_
  rintro r _ rfl
  csimp
  refine Impl.same (keeps_listInsertTail _ _ _) fun _ _ => ?_
  refine Impl.same (keeps_set _ _) fun _ _ => Impl.same (keeps_get _) fun n _ => Impl.same (keeps_set _ _) fun _ _ => ?_
  exact Impl.tail (impl_hashlin_grow_step ext _ _) fun _ => rfl

theorem impl_hashlin_remove_existing (s t : CTy) (p node : Nat) : Impl (fun a b => b = ⟨.ptr .void, a⟩) (bhashlinRemoveExisting p node)
    (run ext "tommy_hashlin_remove_existing" [⟨.ptr s, p⟩, ⟨.ptr t, node⟩]) := by
  rw [run_fun rfl (show funs _ = some f_tommy_hashlin_remove_existing from rfl)]
  unfold bhashlinRemoveExisting f_tommy_hashlin_remove_existing
  simp only [Stmt.list]
  csimp
  refine Impl.same (keeps_get _) fun x h1 => Impl.bind (impl_hashlin_bucket_ref ext _ _ _) ?_
  rintro r _ rfl
  csimp
  refine Impl.same (keeps_listRemoveExisting _ _) fun _ _ => ?_
  refine Impl.same (keeps_get _) fun n h4 => ?_
  csimp [h4]
  refine Impl.same (keeps_set _ _) fun _ _ => Impl.bind (impl_hashlin_shrink_step ext _ _) ?_
  rintro _ _ rfl
  exact Impl.last (keeps_get _) fun _ _ => rfl

theorem impl_hashlin_search (s : CTy) {t f arg hash : Nat} {cmp : Nat → Int} (hc : IsCmp ext f arg cmp) :
    Impl (fun a b => b = ⟨.ptr .void, a⟩) (bhashlinSearch t cmp hash)
    (run ext "tommy_hashlin_search" [⟨.ptr s, t⟩, ⟨.ptr .fn, f⟩, ⟨.ptr .void, arg⟩, ⟨.usize, hash⟩]) := by
  rw [run_fun rfl (show funs _ = some f_tommy_hashlin_search from rfl)]
  have hl := impl_search ext "hashlin" rfl rfl rfl tLin hc t hash
  unfold bhashlinSearch f_tommy_hashlin_search
  unfold searchWhile at hl
  generalize hW : Stmt.while _ _ = W at hl ⊢
  simp only [Stmt.list]
  csimp
  refine Impl.bind (impl_hashlin_bucket ext _ _ _) ?_
  rintro i _ rfl
  csimp
  rw [← bind_pure (bhashSearchLoop cmp hash i)]
  refine Impl.bind (hl i) ?_
  rintro a ⟨c, e⟩ (h | ⟨h, h'⟩)
  · cases h; csimp; exact Impl.pure rfl
  · cases h; csimp; rw [h']; exact Impl.pure rfl

theorem impl_hashlin_remove (s : CTy) {t f arg hash : Nat} {cmp : Nat → Int} (hc : IsCmp ext f arg cmp) :
    Impl (fun a b => b = ⟨.ptr .void, a⟩) (bhashlinRemove t cmp hash)
    (run ext "tommy_hashlin_remove" [⟨.ptr s, t⟩, ⟨.ptr .fn, f⟩, ⟨.ptr .void, arg⟩, ⟨.usize, hash⟩]) := by
  rw [run_fun rfl (show funs _ = some f_tommy_hashlin_remove from rfl)]
  unfold bhashlinRemove f_tommy_hashlin_remove
  generalize hW : Stmt.while _ _ = W
  simp only [Stmt.list]
  csimp
  refine Impl.bind (impl_hashlin_bucket_ref ext _ _ _) ?_
  rintro r _ rfl
  csimp
  refine Impl.same (keeps_get _) fun head _ => ?_
  have hl := impl_find (P := fun a r => r.1 = .ret (some ⟨.ptr .void, a⟩) ∨ r.1 = .normal ∧ a = 0)
    (k := fun node => if node = 0 then Pure.pure 0 else do
          let _ ← blistRemoveExisting r node
          let count ← bget (t + linCount)
          bset (t + linCount) (decT count)
          bhashlinShrinkStep t
          bget (node + nodData)) (R := (.block (.list [
              .expr (.call "tommy_list_remove_existing" (.cons (.var "let_ptr") (.cons (.var "node") .nil))),
              .expr (.assignOp .sub (.arrow (.var "hashlin") "count") (.num 1)),
              .expr (.call "hashlin_shrink_step" (.cons (.var "hashlin") .nil)),
              .retE (.arrow (.var "node") "data")]))) ext "let_ptr" (.ptr tNode) r rfl rfl rfl rfl
    "hashlin" rfl rfl rfl rfl tLin hc t hash head (Impl.pure (.inr ⟨rfl, rfl⟩)) ?_
  · unfold findWhile at hl
    rw [hW] at hl
    rw [← bind_pure (bhashFindLoop cmp hash head >>= _)]
    refine Impl.bind hl ?_
    rintro a ⟨c, e⟩ (h | ⟨h, h'⟩)
    · cases h; csimp; exact Impl.pure rfl
    · cases h; csimp; rw [h']; exact Impl.pure rfl
  · intro i hi
    simp only [Stmt.list]
    unfold findEnv
    rw [if_neg hi]
    csimp
    refine Impl.same (keeps_listRemoveExisting _ _) fun _ _ => Impl.same (keeps_get _) fun count hn => ?_
    csimp [hn]
    refine Impl.same (keeps_set _ _) fun _ _ => Impl.bind (impl_hashlin_shrink_step ext _ _) ?_
    rintro _ _ rfl
    exact Impl.last (keeps_get _) fun _ _ => ⟨_, rfl, fun _ => .inl rfl⟩

/-- tommyhashlin.c:299-307, 318-326: the loop on the positions. -/
def linWhile (C : Expr) : Stmt := .while (.bin .lt (.var "pos") (.var "bucket_max"))
  (.seq (.block (.list [
    .declInit (.ptr (.struct "tommy_node_struct")) "node" (.deref (.call "tommy_hashlin_pos" (.cons (.var "hashlin") (.cons (.var "pos") .nil)))),
    nodeWhile C])) (.expr (.assignOp .add (.var "pos") (.num 1))))

/-- The variables. -/
def linEnv (E : Env) (t max pos : Nat) : Env :=
  ("pos", .usize, [some pos]) :: ("bucket_max", .usize, [some max]) :: ("hashlin", tLin, [some t]) :: E

theorem impl_linWhile {C : Expr} {E : Env} {func : Nat → BM Unit} (hE : E.get "tommy_hashlin_pos" = none) (hk : ∀ d, Keeps (fun _ => True) (func d)) {t max : Nat} (hm : max < 2 ^ sizeBit)
    (hC : ∀ d n pos, ev structs ext (run ext) C (("data", .ptr .void, [some d]) :: ("node", tNode, [some n]) :: linEnv E t max pos) =
      (do func d; return (.val ⟨.void, 0⟩, ("data", .ptr .void, [some d]) :: ("node", tNode, [some n]) :: linEnv E t max pos)))
    (k pos : Nat) (hp : pos + k = max) :
    Impl (fun _ r => r = (.normal, linEnv E t max max)) (bposForeachLoop func (bhashlinPos t) pos k)
      (exec structs ext (run ext) (linWhile C) (linEnv E t max pos)) := by
  obtain ⟨W, hW⟩ : ∃ W, W = linWhile C := ⟨_, rfl⟩
  rw [← hW]
  have hn := fun pos => impl_nodeWhile ext hk (hC · · pos)
  unfold linWhile at hW
  generalize nodeWhile C = N at hW hn
  simp only [Stmt.list] at hW
  have hd : ∀ n, n + 1 + 1 + 1 + 1 - (n + 1 + 1 + 1) = 1 := by omega
  clear hC
  induction k generalizing pos with
  | zero =>
    have h1 : ¬ pos < max := by omega
    rw [exec_while ext _ hW]
    unfold linEnv bposForeachLoop
    csimp [h1]
    exact Impl.pure (by rw [show pos = max by omega])
  | succ k ih =>
    have h1 : pos < max := by omega
    have h2 : Tommy.sizeT (pos + 1) = pos + 1 := Nat.mod_eq_of_lt (by omega)
    have h3 : pos < 2 ^ sizeBit := by omega
    rw [exec_while ext _ hW]
    unfold linEnv bposForeachLoop
    csimp [h1, h3, hE]
    refine Impl.same (keeps_linPos _ _) fun r _ => Impl.same (keeps_get _) fun node _ => ?_
    refine Impl.bind (hn pos node) ?_
    rintro _ _ rfl
    unfold linEnv
    csimp [hd, h2]
    exact ih (pos + 1) (by omega)

theorem impl_hashlin_foreach (s : CTy) {t f : Nat} {func : Nat → BM Unit} (hf : IsFunc ext f func) (hk : ∀ d, Keeps (fun _ => True) (func d)) :
    Impl (fun _ b => b = ⟨.void, 0⟩) (bhashlinForeach t func) (run ext "tommy_hashlin_foreach" [⟨.ptr s, t⟩, ⟨.ptr .fn, f⟩]) := by
  rw [run_fun rfl (show funs _ = some f_tommy_hashlin_foreach from rfl)]
  unfold bhashlinForeach f_tommy_hashlin_foreach
  generalize hW : Stmt.for _ _ _ _ = W
  simp only [Stmt.list]
  csimp
  refine Impl.same (keeps_get _) fun lm _ => Impl.same (keeps_get _) fun sp _ => ?_
  subst hW
  rw [exec_for]
  have hl := impl_linWhile (C := .call "func" (.cons (.var "data") .nil)) (E := [("func", .ptr .fn, [some f])]) ext rfl hk (t := t)
    (max := Tommy.sizeT (lm + sp)) (Nat.mod_lt _ (Nat.two_pow_pos _)) (by
    intro d n pos
    unfold linEnv
    csimp [hf d]) _ 0 (Nat.zero_add _)
  unfold linWhile nodeWhile at hl
  generalize Stmt.while _ _ = W at hl ⊢
  csimp
  rw [← bind_pure (bposForeachLoop _ _ _ _)]
  refine Impl.bind hl ?_
  rintro _ _ rfl
  exact Impl.pure rfl

theorem impl_hashlin_foreach_arg (s : CTy) {t f arg : Nat} {func : Nat → BM Unit} (hf : IsFuncArg ext f arg func) (hk : ∀ d, Keeps (fun _ => True) (func d)) :
    Impl (fun _ b => b = ⟨.void, 0⟩) (bhashlinForeach t func)
    (run ext "tommy_hashlin_foreach_arg" [⟨.ptr s, t⟩, ⟨.ptr .fn, f⟩, ⟨.ptr .void, arg⟩]) := by
  rw [run_fun rfl (show funs _ = some f_tommy_hashlin_foreach_arg from rfl)]
  unfold bhashlinForeach f_tommy_hashlin_foreach_arg
  generalize hW : Stmt.for _ _ _ _ = W
  simp only [Stmt.list]
  csimp
  refine Impl.same (keeps_get _) fun lm _ => Impl.same (keeps_get _) fun sp _ => ?_
  subst hW
  rw [exec_for]
  have hl := impl_linWhile (C := .call "func" (.cons (.var "arg") (.cons (.var "data") .nil))) (E := [("func", .ptr .fn, [some f]), ("arg", .ptr .void, [some arg])]) ext rfl hk (t := t)
    (max := Tommy.sizeT (lm + sp)) (Nat.mod_lt _ (Nat.two_pow_pos _)) (by
    intro d n pos
    unfold linEnv
    csimp [hf d]) _ 0 (Nat.zero_add _)
  unfold linWhile nodeWhile at hl
  generalize Stmt.while _ _ = W at hl ⊢
  csimp
  rw [← bind_pure (bposForeachLoop _ _ _ _)]
  refine Impl.bind hl ?_
  rintro _ _ rfl
  exact Impl.pure rfl

end Tommy.C
