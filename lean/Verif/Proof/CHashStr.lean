import Verif.Proof.CHash
/-! The text of tommy_strhash_u32 of tommyhash.c does what the model does. -/
set_option autoImplicit false
set_option linter.unusedSectionVars false
namespace Tommy.C
open Src
variable [Arch] (ext : Ext)

theorem conv_u32_s32 (n : Nat) (h : n < 2 ^ 31) : conv .u32 ⟨.s32, n⟩ = ⟨.u32, n⟩ := by
  unfold conv
  rw [if_neg nofun, if_neg (fun h => nomatch h.2), int_s32 h, toNat_mod, Nat.mod_eq_of_lt]
  exact Nat.lt_trans h (show 2 ^ 31 < 2 ^ 32 by decide)

theorem w_sub_s32 (x y : BitVec 32) (h : y.toNat < 2 ^ 31) : binop .sub ⟨.u32, x.toNat⟩ ⟨.s32, y.toNat⟩ = some ⟨.u32, (x - y).toNat⟩ := by
  bin [conv_u32_s32 _ h, sub_mod _ _ _ (Nat.le_of_lt y.isLt), BitVec.toNat_sub]

theorem w_ne_zero (x : BitVec 32) : binop .ne ⟨.u32, x.toNat⟩ ⟨.s32, 0⟩ = some (bool (x ≠ 0)) := by
  have e : x.toNat = 0 ↔ x = 0 := ⟨fun h => BitVec.eq_of_toNat_eq h, fun h => by rw [h]; rfl⟩
  bin [conv_u32_s32 0 (by decide), ne_eq]
  simp only [e]

theorem exec_haszero (call : String → List Val → BM Val) (x : BitVec 32) : execFun structs ext call f_tommy_haszero_u32 [⟨.u32, x.toNat⟩] = pure (bool (hasZeroU32 x.toNat)) := by
  have e1 : (16843009 : Nat) = (0x01010101#32).toNat := rfl
  have e2 : (2155905152 : Nat) = (0x80808080#32).toNat := rfl
  have h1 : (0x01010101#32).toNat < 2 ^ 31 := by decide
  have e : decide (¬ (x - 0x01010101#32) &&& ~~~x &&& 0x80808080#32 = 0) = hasZeroU32 x.toNat := by
    unfold hasZeroU32
    have e : (x.toNat + (2 ^ 32 - 0x01010101)) % 2 ^ 32 &&& (2 ^ 32 - 1 - x.toNat) &&& 0x80808080 = ((x - 0x01010101#32) &&& ~~~x &&& 0x80808080#32).toNat := by
      rw [BitVec.toNat_and, BitVec.toNat_and, BitVec.toNat_not, BitVec.toNat_sub, Nat.add_comm x.toNat]
      rfl
    rw [e]
    generalize _ &&& (_ : BitVec 32) = y
    have : y.toNat = 0 ↔ y = 0 := ⟨fun h => BitVec.eq_of_toNat_eq h, fun h => by rw [h]; rfl⟩
    by_cases h : y = 0
    · simp [h]
    · rw [decide_eq_true h]
      have h' := mt this.1 h
      simp [h']
  unfold f_tommy_haszero_u32
  rw [e1, e2]
  simp only [Stmt.list]
  csimp [w_sub_s32 _ _ h1, w_not, w_and, w_ne_zero]
  rw [← e]
  exact congrArg pure (conv_same _ _)

/-- What `tommy_haszero_u32` does. -/
def IsZero (call : String → List Val → BM Val) : Prop := ∀ x : BitVec 32, call "tommy_haszero_u32" [⟨.u32, x.toNat⟩] = pure (bool (hasZeroU32 x.toNat))

variable {call : String → List Val → BM Val} {mem : Bytes} (hz : IsZero call)

attribute [local irreducible] hasZeroU32 mix final

abbrev tailS (x : String) : Stmt := .ite (.bin .and (.var "v") (.index (.var "m") (.num 0)))
  (.block (.list [
    .expr (.assignOp .add (.var x) (.bin .and (.var "v") (.index (.var "m") (.num 0)))),
    .ite (.bin .and (.var "v") (.index (.var "m") (.num 1)))
      (.block (.list [
        .expr (.assignOp .add (.var x) (.bin .and (.var "v") (.index (.var "m") (.num 1)))),
        .ite (.bin .and (.var "v") (.index (.var "m") (.num 2)))
          (.expr (.assignOp .add (.var x) (.bin .and (.var "v") (.index (.var "m") (.num 2)))))
          .skip]))
      .skip]))
  .skip

/-- The variables of `tommy_strhash_u32`, and `v` in the loop. -/
def tEnv (m0 m1 m2 : BitVec 32) (iv vk key : Nat) (a b c : BitVec 32) : Env :=
  [("m", .arr .u32 3, [some m0.toNat, some m1.toNat, some m2.toNat]), ("c", .u32, [some c.toNat]), ("b", .u32, [some b.toNat]), ("a", .u32, [some a.toNat]),
    ("key", .ptr .u8, [some key]), ("init_val", .u64, [some iv]), ("void_key", .ptr .void, [some vk])]
def vEnv (v m0 m1 m2 : BitVec 32) (iv vk key : Nat) (a b c : BitVec 32) : Env := ("v", .u32, [some v.toNat]) :: tEnv m0 m1 m2 iv vk key a b c

omit [Arch] in
theorem toNat_ne (x : BitVec 32) : (x.toNat = 0) ↔ x = 0 := ⟨fun h => BitVec.eq_of_toNat_eq h, fun h => by rw [h]; rfl⟩

/-- `strTail` with the masks -/
def maskTail (m0 m1 m2 v x : BitVec 32) : BitVec 32 :=
  if v &&& m0 = 0 then x else if v &&& m1 = 0 then x + (v &&& m0) else if v &&& m2 = 0 then x + (v &&& m0) + (v &&& m1) else x + (v &&& m0) + (v &&& m1) + (v &&& m2)

theorem m_in (n : Nat) (h : n < 3) : (0 ≤ (Val.mk .s32 n).int ∧ (Val.mk .s32 n).int < ((3 : Nat) : Int)) = True := by
  rw [int_s32 (by omega)]
  exact eq_true (by omega)
theorem m_at (n : Nat) (h : n < 3) (l : List (Option Nat)) : l[0 + (Val.mk .s32 n).int.toNat]? = l[n]? := by
  rw [int_s32 (by omega), Int.toNat_natCast, Nat.zero_add]
omit [Arch] in
theorem m_0 {α : Type} (x y z : α) : [x, y, z][0]? = some x := rfl
omit [Arch] in
theorem m_1 {α : Type} (x y z : α) : [x, y, z][1]? = some y := rfl
omit [Arch] in
theorem m_2 {α : Type} (x y z : α) : [x, y, z][2]? = some z := rfl

section
variable (v m0 m1 m2 : BitVec 32) (iv vk key : Nat) (a b c : BitVec 32)
theorem exec_tail_a : exec structs ext call (tailS "a") (vEnv v m0 m1 m2 iv vk key a b c) =
    pure (.normal, vEnv v m0 m1 m2 iv vk key (maskTail m0 m1 m2 v a) b c) := by
  unfold vEnv tEnv tailS maskTail
  simp only [Stmt.list]
  csimp [w_and, w_add, m_in, m_at, m_0, m_1, m_2, toNat_ne]
  by_cases h0 : v &&& m0 = 0 <;> by_cases h1 : v &&& m1 = 0 <;> by_cases h2 : v &&& m2 = 0 <;> simp only [h0, h1, h2, if_true, if_false]
theorem exec_tail_b : exec structs ext call (tailS "b") (vEnv v m0 m1 m2 iv vk key a b c) =
    pure (.normal, vEnv v m0 m1 m2 iv vk key a (maskTail m0 m1 m2 v b) c) := by
  unfold vEnv tEnv tailS maskTail
  simp only [Stmt.list]
  csimp [w_and, w_add, m_in, m_at, m_0, m_1, m_2, toNat_ne]
  by_cases h0 : v &&& m0 = 0 <;> by_cases h1 : v &&& m1 = 0 <;> by_cases h2 : v &&& m2 = 0 <;> simp only [h0, h1, h2, if_true, if_false]
theorem exec_tail_c : exec structs ext call (tailS "c") (vEnv v m0 m1 m2 iv vk key a b c) =
    pure (.normal, vEnv v m0 m1 m2 iv vk key a b (maskTail m0 m1 m2 v c)) := by
  unfold vEnv tEnv tailS maskTail
  simp only [Stmt.list]
  csimp [w_and, w_add, m_in, m_at, m_0, m_1, m_2, toNat_ne]
  by_cases h0 : v &&& m0 = 0 <;> by_cases h1 : v &&& m1 = 0 <;> by_cases h2 : v &&& m2 = 0 <;> simp only [h0, h1, h2, if_true, if_false]

abbrev zeroS (x : String) : Stmt := .ite (.call "tommy_haszero_u32" (.cons (.var "v") .nil)) (.block (.list [tailS x, .break])) .skip

include hz in
theorem zero_gen (e e' : Env) (x : String) (hg : e.get "v" = some (.u32, [some v.toNat])) (hf : e.get "tommy_haszero_u32" = none) (hl : e'.length = e.length)
    (ht : exec structs ext call (tailS x) e = pure (.normal, e')) :
    exec structs ext call (zeroS x) e = pure (if hasZeroU32 v.toNat then (.brk, e') else (.normal, e)) := by
  unfold zeroS
  generalize tailS x = T at ht
  simp only [Stmt.list]
  csimp [hg, hf, hz _]
  cases hasZeroU32 v.toNat
  · csimp
  · csimp
    rw [ht]
    csimp [hl, Nat.sub_self, List.drop_zero]

include hz in
theorem exec_zero_a : exec structs ext call (zeroS "a") (vEnv v m0 m1 m2 iv vk key a b c) =
    pure (if hasZeroU32 v.toNat then (.brk, vEnv v m0 m1 m2 iv vk key (maskTail m0 m1 m2 v a) b c) else (.normal, vEnv v m0 m1 m2 iv vk key a b c)) :=
  zero_gen ext hz v _ _ _ rfl rfl rfl (exec_tail_a ..)
include hz in
theorem exec_zero_b : exec structs ext call (zeroS "b") (vEnv v m0 m1 m2 iv vk key a b c) =
    pure (if hasZeroU32 v.toNat then (.brk, vEnv v m0 m1 m2 iv vk key a (maskTail m0 m1 m2 v b) c) else (.normal, vEnv v m0 m1 m2 iv vk key a b c)) :=
  zero_gen ext hz v _ _ _ rfl rfl rfl (exec_tail_b ..)
include hz in
theorem exec_zero_c : exec structs ext call (zeroS "c") (vEnv v m0 m1 m2 iv vk key a b c) =
    pure (if hasZeroU32 v.toNat then (.brk, vEnv v m0 m1 m2 iv vk key a b (maskTail m0 m1 m2 v c)) else (.normal, vEnv v m0 m1 m2 iv vk key a b c)) :=
  zero_gen ext hz v _ _ _ rfl rfl rfl (exec_tail_c ..)

end

/-- tommyhash.c:177-232 -/
def strBlock : Stmt := .list [
  .declInit .u32 "v" (.call "tommy_le_uint32_read" (.cons (.var "key") .nil)), zeroS "a", opVar .add "a" "v",
  .expr (.assign (.var "v") (.call "tommy_le_uint32_read" (.cons (.addr (.index (.var "key") (.num 4))) .nil))), zeroS "b", opVar .add "b" "v",
  .expr (.assign (.var "v") (.call "tommy_le_uint32_read" (.cons (.addr (.index (.var "key") (.num 8))) .nil))), zeroS "c", opVar .add "c" "v",
  mixStmt,
  .expr (.assign (.var "key") (.addr (.index (.var "key") (.num 12))))]

theorem vEnv_acc (v m0 m1 m2 : BitVec 32) (iv vk key : Nat) : KAcc (vEnv v m0 m1 m2 iv vk key) 8 key := by
  constructor
  · constructor <;> intros <;> unfold vEnv tEnv <;> csimp
  all_goals intros; unfold vEnv tEnv; csimp

theorem tEnv_acc (m0 m1 m2 : BitVec 32) (iv vk key : Nat) : Acc (tEnv m0 m1 m2 iv vk key) 7 := by
  constructor <;> intros <;> unfold tEnv <;> csimp

theorem strhash_body : f_tommy_strhash_u32.body = .list [
      .declInit (.ptr .u8) "key" (.var "void_key"),
      .decl .u32 "a",
      .decl .u32 "b",
      .decl .u32 "c",
      .decl (.arr .u32 3) "m",
      .expr (.assign (.index (.var "m") (.num 0)) (.num 255)),
      .expr (.assign (.index (.var "m") (.num 1)) (.num 65280)),
      .expr (.assign (.index (.var "m") (.num 2)) (.num 16711680)),
      .expr (.assign (.var "a") (.assign (.var "b") (.assign (.var "c") (.bin .add (.lit .u32 3735928559) (.var "init_val"))))),
      .while (.num 1) (.block strBlock), finalStmt, .retE (.var "c")] := rfl

/-- One turn: the state and if it is the last. -/
def strStep (m0 m1 m2 : BitVec 32) (mem : Bytes) (s : Abc) (key : Nat) : Option (Bool × Abc) := do
  let v ← leRead mem key
  if hasZeroU32 v.toNat then
    some (true, ⟨maskTail m0 m1 m2 v s.a, s.b, s.c⟩)
  else do
    let v1 ← leRead mem (key + 4)
    if hasZeroU32 v1.toNat then
      some (true, ⟨s.a + v, maskTail m0 m1 m2 v1 s.b, s.c⟩)
    else do
      let v2 ← leRead mem (key + 8)
      if hasZeroU32 v2.toNat then
        some (true, ⟨s.a + v, s.b + v1, maskTail m0 m1 m2 v2 s.c⟩)
      else some (false, mix ⟨s.a + v, s.b + v1, s.c + v2⟩)

theorem Rd.bind' {α β : Type} {w : BMem} {x : BM α} {f : α → BM β} {a : α} {o : Option β} (h : Rd w x (some a)) (h' : Rd w (f a) o) : Rd w (x >>= f) o := by
  intro b hb
  show (x w).bind _ = _
  rw [h a rfl]
  exact h' b hb

theorem Rd.seq' {w : BMem} {s t : Stmt} {e e' : Env} {o : Option (Ctl × Env)} (h : Rd w (exec structs ext call s e) (some (.normal, e')))
    (h' : Rd w (exec structs ext call t e') o) : Rd w (exec structs ext call (.seq s t) e) o := by
  rw [exec.eq_2]
  exact Rd.bind' h h'

theorem Rd.seq_brk {w : BMem} {s t : Stmt} {e e' : Env} (h : Rd w (exec structs ext call s e) (some (.brk, e'))) :
    Rd w (exec structs ext call (.seq s t) e) (some (.brk, e')) := by
  rw [exec.eq_2]
  exact Rd.bind' h (Rd.pure _)

section
variable {w : BMem} {vk : Nat} (hw : Src call w vk mem) (m0 m1 m2 : BitVec 32) (iv off : Nat) (a b c : BitVec 32)

include hw in
theorem rd_declv {v : BitVec 32} (h : leRead mem off = some v) :
    Rd w (exec structs ext call (.declInit .u32 "v" (.call "tommy_le_uint32_read" (.cons (.var "key") .nil))) (tEnv m0 m1 m2 iv vk (adr vk off) a b c))
      (some (.normal, vEnv v m0 m1 m2 iv vk (adr vk off) a b c)) := by
  have r := hw.le .u8 off
  rw [h] at r
  unfold vEnv tEnv
  csimp
  refine Rd.bind' r ?_
  csimp
  exact Rd.pure _

include hw in
theorem rd_setv {v : BitVec 32} (k : Nat) (hk : k < 2 ^ 31) (v0 : BitVec 32) (h : leRead mem (off + k) = some v) :
    Rd w (exec structs ext call (.expr (.assign (.var "v") (.call "tommy_le_uint32_read" (.cons (.addr (.index (.var "key") (.num k))) .nil))))
      (vEnv v0 m0 m1 m2 iv vk (adr vk off) a b c)) (some (.normal, vEnv v m0 m1 m2 iv vk (adr vk off) a b c)) := by
  have r := hw.le .u8 (off + k)
  rw [h] at r
  unfold vEnv tEnv
  csimp [elem_adr vk off k hk]
  refine Rd.bind' r ?_
  csimp
  exact Rd.pure _

theorem rd_addv_a (v : BitVec 32) : Rd w (exec structs ext call (opVar .add "a" "v") (vEnv v m0 m1 m2 iv vk off a b c))
    (some (.normal, vEnv v m0 m1 m2 iv vk off (a + v) b c)) := by
  unfold vEnv tEnv
  csimp [w_add]
  exact Rd.pure _
theorem rd_addv_b (v : BitVec 32) : Rd w (exec structs ext call (opVar .add "b" "v") (vEnv v m0 m1 m2 iv vk off a b c))
    (some (.normal, vEnv v m0 m1 m2 iv vk off a (b + v) c)) := by
  unfold vEnv tEnv
  csimp [w_add]
  exact Rd.pure _
theorem rd_addv_c (v : BitVec 32) : Rd w (exec structs ext call (opVar .add "c" "v") (vEnv v m0 m1 m2 iv vk off a b c))
    (some (.normal, vEnv v m0 m1 m2 iv vk off a b (c + v))) := by
  unfold vEnv tEnv
  csimp [w_add]
  exact Rd.pure _

/-- The state at the end of a turn, with the variable `v` of the block. -/
theorem rd_block {s : Stmt} {e e' : Env} {r : Ctl} {x : String × CTy × List (Option Nat)} (hl : e'.length = e.length) (h : Rd w (exec structs ext call s e) (some (r, x :: e'))) :
    Rd w (exec structs ext call (.block s) e) (some (r, e')) := by
  rw [exec.eq_6]
  refine Rd.bind' h ?_
  have : (x :: e').drop ((x :: e').length - e.length) = e' := by
    rw [List.length_cons, hl, Nat.add_sub_cancel_left]; rfl
  simp only [this]
  exact Rd.pure _

omit [Arch] hw in
theorem tEnv_length (key key' : Nat) (a' b' c' : BitVec 32) : (tEnv m0 m1 m2 iv vk key a b c).length = (tEnv m0 m1 m2 iv vk key' a' b' c').length := by
  unfold tEnv
  rfl

include hw hz in
theorem rd_step :
    Rd w (exec structs ext call (.block strBlock) (tEnv m0 m1 m2 iv vk (adr vk off) a b c))
      ((strStep m0 m1 m2 mem ⟨a, b, c⟩ off).map fun r =>
        (if r.1 then .brk else .normal, tEnv m0 m1 m2 iv vk (if r.1 then adr vk off else adr vk (off + 12)) r.2.a r.2.b r.2.c)) := by
  unfold strBlock
  simp only [Stmt.list]
  cases h0 : leRead mem off with
  | none =>
    have e : strStep m0 m1 m2 mem ⟨a, b, c⟩ off = none := by rw [strStep, h0]; rfl
    rw [e]
    exact Rd.none
  | some v0 =>
  have d0 := rd_declv ext hw m0 m1 m2 iv off a b c h0
  have z0 := exec_zero_a ext hz v0 m0 m1 m2 iv vk (adr vk off) a b c
  by_cases hz0 : hasZeroU32 v0.toNat = true
  · have e : strStep m0 m1 m2 mem ⟨a, b, c⟩ off = some (true, ⟨maskTail m0 m1 m2 v0 a, b, c⟩) := by
      rw [strStep, h0, Option.bind_eq_bind, Option.bind_some, if_pos hz0]
    rw [if_pos hz0] at z0
    rw [e]
    refine rd_block (w := w) ext (x := ("v", .u32, [some v0.toNat])) (tEnv_length ..) ?_
    refine Rd.seq' ext d0 ?_
    refine Rd.seq_brk ext ?_
    rw [z0]
    exact Rd.pure _
  rw [if_neg hz0] at z0
  cases h1 : leRead mem (off + 4) with
  | none =>
    have e : strStep m0 m1 m2 mem ⟨a, b, c⟩ off = none := by
      rw [strStep, h0, Option.bind_eq_bind, Option.bind_some, if_neg hz0, h1]; rfl
    rw [e]
    exact Rd.none
  | some v1 =>
  have d1 := rd_setv ext hw m0 m1 m2 iv off (a + v0) b c 4 (by decide) v0 h1
  have z1 := exec_zero_b ext hz v1 m0 m1 m2 iv vk (adr vk off) (a + v0) b c
  have f0 : Rd w (exec structs ext call (zeroS "a") (vEnv v0 m0 m1 m2 iv vk (adr vk off) a b c)) (some (.normal, vEnv v0 m0 m1 m2 iv vk (adr vk off) a b c)) := by
    rw [z0]; exact Rd.pure _
  have a0 := rd_addv_a (call := call) (w := w) (vk := vk) ext m0 m1 m2 iv (adr vk off) a b c v0
  by_cases hz1 : hasZeroU32 v1.toNat = true
  · have e : strStep m0 m1 m2 mem ⟨a, b, c⟩ off = some (true, ⟨a + v0, maskTail m0 m1 m2 v1 b, c⟩) := by
      rw [strStep, h0, Option.bind_eq_bind, Option.bind_some, if_neg hz0, h1, Option.bind_some, if_pos hz1]
    rw [if_pos hz1] at z1
    rw [e]
    refine rd_block (w := w) ext (x := ("v", .u32, [some v1.toNat])) (tEnv_length ..) ?_
    refine Rd.seq' ext d0 ?_
    refine Rd.seq' ext f0 ?_
    refine Rd.seq' ext a0 ?_
    refine Rd.seq' ext d1 ?_
    refine Rd.seq_brk ext ?_
    rw [z1]
    exact Rd.pure _
  rw [if_neg hz1] at z1
  cases h2 : leRead mem (off + 8) with
  | none =>
    have e : strStep m0 m1 m2 mem ⟨a, b, c⟩ off = none := by
      rw [strStep, h0, Option.bind_eq_bind, Option.bind_some, if_neg hz0, h1, Option.bind_some, if_neg hz1, h2]; rfl
    rw [e]
    exact Rd.none
  | some v2 =>
  have d2 := rd_setv ext hw m0 m1 m2 iv off (a + v0) (b + v1) c 8 (by decide) v1 h2
  have z2 := exec_zero_c ext hz v2 m0 m1 m2 iv vk (adr vk off) (a + v0) (b + v1) c
  have f1 : Rd w (exec structs ext call (zeroS "b") (vEnv v1 m0 m1 m2 iv vk (adr vk off) (a + v0) b c))
      (some (.normal, vEnv v1 m0 m1 m2 iv vk (adr vk off) (a + v0) b c)) := by
    rw [z1]; exact Rd.pure _
  have a1 := rd_addv_b (call := call) (w := w) (vk := vk) ext m0 m1 m2 iv (adr vk off) (a + v0) b c v1
  by_cases hz2 : hasZeroU32 v2.toNat = true
  · have e : strStep m0 m1 m2 mem ⟨a, b, c⟩ off = some (true, ⟨a + v0, b + v1, maskTail m0 m1 m2 v2 c⟩) := by
      rw [strStep, h0, Option.bind_eq_bind, Option.bind_some, if_neg hz0, h1, Option.bind_some, if_neg hz1, h2, Option.bind_some, if_pos hz2]
    rw [if_pos hz2] at z2
    rw [e]
    refine rd_block (w := w) ext (x := ("v", .u32, [some v2.toNat])) (tEnv_length ..) ?_
    refine Rd.seq' ext d0 ?_
    refine Rd.seq' ext f0 ?_
    refine Rd.seq' ext a0 ?_
    refine Rd.seq' ext d1 ?_
    refine Rd.seq' ext f1 ?_
    refine Rd.seq' ext a1 ?_
    refine Rd.seq' ext d2 ?_
    refine Rd.seq_brk ext ?_
    rw [z2]
    exact Rd.pure _
  rw [if_neg hz2] at z2
  have f2 : Rd w (exec structs ext call (zeroS "c") (vEnv v2 m0 m1 m2 iv vk (adr vk off) (a + v0) (b + v1) c))
      (some (.normal, vEnv v2 m0 m1 m2 iv vk (adr vk off) (a + v0) (b + v1) c)) := by
    rw [z2]; exact Rd.pure _
  have a2 := rd_addv_c (call := call) (w := w) (vk := vk) ext m0 m1 m2 iv (adr vk off) (a + v0) (b + v1) c v2
  have mx := exec_mix ext call (vEnv_acc v2 m0 m1 m2 iv vk (adr vk off)).toAcc (a + v0) (b + v1) (c + v2)
  have e : strStep m0 m1 m2 mem ⟨a, b, c⟩ off = some (false, mix ⟨a + v0, b + v1, c + v2⟩) := by
    rw [strStep, h0, Option.bind_eq_bind, Option.bind_some, if_neg hz0, h1, Option.bind_some, if_neg hz1, h2, Option.bind_some, if_neg hz2]
  rw [e]
  generalize mix _ = m at mx ⊢
  have mx' : Rd w (exec structs ext call mixStmt (vEnv v2 m0 m1 m2 iv vk (adr vk off) (a + v0) (b + v1) (c + v2)))
      (some (.normal, vEnv v2 m0 m1 m2 iv vk (adr vk off) m.a m.b m.c)) := by
    rw [mx]; exact Rd.pure _
  refine rd_block (w := w) ext (x := ("v", .u32, [some v2.toNat])) (tEnv_length ..) ?_
  refine Rd.seq' ext d0 ?_
  refine Rd.seq' ext f0 ?_
  refine Rd.seq' ext a0 ?_
  refine Rd.seq' ext d1 ?_
  refine Rd.seq' ext f1 ?_
  refine Rd.seq' ext a1 ?_
  refine Rd.seq' ext d2 ?_
  refine Rd.seq' ext f2 ?_
  refine Rd.seq' ext a2 ?_
  refine Rd.seq' ext mx' ?_
  unfold vEnv tEnv
  csimp [elem_adr vk off 12 (by decide)]
  exact Rd.pure _

end

omit [Arch] in
theorem strTail_mask (v x : BitVec 32) : strTail v x = maskTail 0xff 0xff00 0xff0000 v x := by
  unfold strTail maskTail
  simp only [ne_eq, ite_not]

omit [Arch] in
theorem strBody_step (mx : Abc → Abc) (f : Abc → Nat → Option Abc) (z : Nat → Bool) (w : Bytes) (s : Abc) (off : Nat) : (do
   let r ← (do
      let v ← leRead w off
      if z v.toNat then
        some (true, (⟨maskTail 0xff 0xff00 0xff0000 v s.a, s.b, s.c⟩ : Abc))
      else do
        let v1 ← leRead w (off + 4)
        if z v1.toNat then
          some (true, ⟨s.a + v, maskTail 0xff 0xff00 0xff0000 v1 s.b, s.c⟩)
        else do
          let v2 ← leRead w (off + 8)
          if z v2.toNat then
            some (true, ⟨s.a + v, s.b + v1, maskTail 0xff 0xff00 0xff0000 v2 s.c⟩)
          else some (false, mx ⟨s.a + v, s.b + v1, s.c + v2⟩))
   if r.1 then some r.2 else f r.2 (off + 12)) = (do
  let v ← leRead w off
  if z v.toNat then
    return { s with a := strTail v s.a }
  let s := { s with a := s.a + v }
  let v ← leRead w (off + 4)
  if z v.toNat then
    return { s with b := strTail v s.b }
  let s := { s with b := s.b + v }
  let v ← leRead w (off + 8)
  if z v.toNat then
    return { s with c := strTail v s.c }
  let s := { s with c := s.c + v }
  f (mx s) (off + 12)) := by
  cases leRead w off with
  | none => rfl
  | some v0 =>
  simp only [Option.bind_eq_bind, Option.bind_some]
  cases z v0.toNat
  · cases leRead w (off + 4) with
    | none => rfl
    | some v1 =>
    simp only [Option.bind_some]
    cases z v1.toNat
    · cases leRead w (off + 8) with
      | none => rfl
      | some v2 =>
      simp only [Option.bind_some]
      cases z v2.toNat
      · rfl
      · simp only [strTail_mask]; rfl
    · simp only [strTail_mask]; rfl
  · simp only [strTail_mask]; rfl

include hz in
theorem rd_strWhile {w : BMem} {vk : Nat} (hw : Src call w vk mem) (iv : Nat) (s : Abc) (off : Nat) (r : Abc) (h : strLoop mem s off = some r) :
    ∃ key, Rd w (exec structs ext call (.while (.num 1) (.block strBlock)) (tEnv 0xff 0xff00 0xff0000 iv vk (adr vk off) s.a s.b s.c))
      (some (.normal, tEnv 0xff 0xff00 0xff0000 iv vk key r.a r.b r.c)) := by
  refine strLoop.partial_correctness mem (fun s off r => ∃ key, Rd w (exec structs ext call (.while (.num 1) (.block strBlock))
    (tEnv 0xff 0xff00 0xff0000 iv vk (adr vk off) s.a s.b s.c)) (some (.normal, tEnv 0xff 0xff00 0xff0000 iv vk key r.a r.b r.c))) ?_ s off r h
  intro f ih s off r h
  have h' : (do
      let r ← strStep 0xff 0xff00 0xff0000 mem s off
      if r.1 then some r.2 else f r.2 (off + 12)) = some r := by
    rw [← h, strStep]
    exact strBody_step mix f hasZeroU32 mem s off
  have st := rd_step ext hz hw 0xff 0xff00 0xff0000 iv off s.a s.b s.c
  have et : eval structs ext call (.num 1) (tEnv 0xff 0xff00 0xff0000 iv vk (adr vk off) s.a s.b s.c) =
      pure (⟨.s32, 1⟩, tEnv 0xff 0xff00 0xff0000 iv vk (adr vk off) s.a s.b s.c) := by csimp
  have e : exec structs ext call (.while (.num 1) (.block strBlock)) (tEnv 0xff 0xff00 0xff0000 iv vk (adr vk off) s.a s.b s.c) = _ := exec_while ext _ rfl _
  rw [et] at e
  simp only [pure_bind] at e
  rw [if_pos (by decide)] at e
  change Rd w _ ((strStep 0xff 0xff00 0xff0000 mem s off).map _) at st
  cases hs : strStep 0xff 0xff00 0xff0000 mem s off with
  | none => rw [hs] at h'; cases h'
  | some q =>
  obtain ⟨d, t⟩ := q
  rw [hs] at h' st
  simp only [Option.bind_eq_bind, Option.bind_some] at h'
  cases d with
  | true =>
    cases h'
    refine ⟨adr vk off, ?_⟩
    rw [e]
    exact Rd.bind' st (Rd.pure _)
  | false =>
    obtain ⟨key, hk⟩ := ih t (off + 12) r h'
    refine ⟨key, ?_⟩
    rw [e]
    exact Rd.bind' st hk

include hz in
theorem exec_strhash {w : BMem} {vk : Nat} (hw : Src call w vk mem) (t : CTy) (iv : BitVec 64) (hp : vk < 2 ^ sizeBit) :
    Rd w (execFun structs ext call f_tommy_strhash_u32 [⟨.u64, iv.toNat⟩, ⟨.ptr t, vk⟩]) ((strhashU32 iv mem).map fun v => ⟨.u32, v.toNat⟩) := by
  have he : bindParams f_tommy_strhash_u32.params [⟨.u64, iv.toNat⟩, ⟨.ptr t, vk⟩] =
      some [("init_val", .u64, [some iv.toNat]), ("void_key", .ptr .void, [some vk])] := by
    unfold f_tommy_strhash_u32
    csimp [bindParams]
  unfold strhashU32
  simp only
  generalize ev : (0xdeadbeef#64 + iv).setWidth 32 = v
  cases hs : strLoop mem ⟨v, v, v⟩ 0 with
  | none => exact Rd.none
  | some r =>
  obtain ⟨key, h⟩ := rd_strWhile ext hz hw iv.toNat ⟨v, v, v⟩ 0 r hs
  have s1 : exec structs ext call f_tommy_strhash_u32.body [("init_val", .u64, [some iv.toNat]), ("void_key", .ptr .void, [some vk])] =
      exec structs ext call (.seq (.while (.num 1) (.block strBlock)) (.seq finalStmt (.retE (.var "c")))) (tEnv 0xff 0xff00 0xff0000 iv.toNat vk (adr vk 0) v v v) := by
    rw [strhash_body, adr_zero hp]
    simp only [Stmt.list]
    generalize Stmt.seq (.while _ _) _ = W
    unfold tEnv
    have e1 : (3735928559 : Nat) = (0xdeadbeef#32).toNat := rfl
    have e2 : (0xdeadbeef#32).setWidth 64 = 0xdeadbeef#64 := rfl
    have i0 : (Val.mk .s32 0).int.toNat = 0 := by rw [int_s32 (by decide)]; rfl
    have i1 : (Val.mk .s32 1).int.toNat = 1 := by rw [int_s32 (by decide)]; rfl
    have i2 : (Val.mk .s32 2).int.toNat = 2 := by rw [int_s32 (by decide)]; rfl
    have l0 : List.replicate 3 (none : Option Nat) = [none, none, none] := rfl
    have l1 (x y z v : Option Nat) : [x, y, z].set 0 v = [v, y, z] := rfl
    have l2 (x y z v : Option Nat) : [x, y, z].set 1 v = [x, v, z] := rfl
    have l3 (x y z v : Option Nat) : [x, y, z].set 2 v = [x, y, v] := rfl
    have b0 (x y z : Option Nat) : [x, y, z].length = 3 := rfl
    rw [e1]
    csimp [wd_add, conv_u32_dword, m_in, conv_u32_s32, i0, i1, i2, l0, l1, l2, l3, b0]
    rw [e2, ev]
    rfl
  have fin : Rd w (exec structs ext call (.seq finalStmt (.retE (.var "c"))) (tEnv 0xff 0xff00 0xff0000 iv.toNat vk key r.a r.b r.c) >>= fun r => pure r.1)
      (some (.ret (some ⟨.u32, (final r).c.toNat⟩))) := by
    rw [exec.eq_2, exec_final ext call (tEnv_acc 0xff 0xff00 0xff0000 iv.toNat vk key) r.a r.b r.c]
    simp only [pure_bind]
    unfold tEnv
    csimp
    exact Rd.pure _
  have body : Rd w (exec structs ext call f_tommy_strhash_u32.body [("init_val", .u64, [some iv.toNat]), ("void_key", .ptr .void, [some vk])] >>= fun r => pure r.1)
      (some (.ret (some ⟨.u32, (final r).c.toNat⟩))) := by
    rw [s1, exec.eq_2, bind_assoc]
    exact Rd.bind' h fin
  have := rd_execFun ext he (o := some ⟨.u32, (final r).c.toNat⟩) body
  refine cast (congrArg _ ?_) this
  exact congrArg some (conv_same _ _)

end Tommy.C
