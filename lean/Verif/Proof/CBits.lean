import Verif.Proof.CImpl
import Verif.Props.Bits
/-! The functions of tommytypes.h. -/
set_option autoImplicit false
namespace Tommy.C
open Src
variable [Arch] (ext : Ext)

/-- `value |= value >> k` -/
def orShr (v k : Nat) : Nat := v ||| (v >>> k)

omit [Arch] in
theorem orShr_lt {v k w : Nat} (h : v < 2 ^ w) : orShr v k < 2 ^ w := Nat.or_lt_two_pow h (Nat.lt_of_le_of_lt (Nat.shiftRight_le v k) h)

theorem or_step32 (call : String → List Val → BM Val) {v k : Nat} (s : Stmt) (hv : v < 2 ^ 32) (hk : k < 32) :
    exec structs ext call (.seq (.expr (.assignOp .or (.var "value") (.bin .shr (.var "value") (.num k)))) s) [("value", .u32, [some v])] =
    exec structs ext call s [("value", .u32, [some (orShr v k)])] := by
  have := shr_u32 v k hv hk
  csimp [this]
  rfl

theorem or_step64 (call : String → List Val → BM Val) {v k : Nat} (s : Stmt) (hv : v < 2 ^ 64) (hk : k < 64) :
    exec structs ext call (.seq (.expr (.assignOp .or (.var "value") (.bin .shr (.var "value") (.num k)))) s) [("value", .u64, [some v])] =
    exec structs ext call s [("value", .u64, [some (orShr v k)])] := by
  have := shr_u64 v k hv hk
  csimp [this]
  rfl

omit [Arch] in
theorem roundup32_eq (n : Nat) : roundupPow2U32 n = ((orShr (orShr (orShr (orShr (orShr ((n + (2 ^ 32 - 1)) % 2 ^ 32) 1) 2) 4) 8) 16) + 1) % 2 ^ 32 := by
  simp only [roundupPow2U32, orShr]

theorem run_roundup32 {n : Nat} {x : Val} (hx : conv .u32 x = ⟨.u32, n⟩) (h : n < 2 ^ 32) : run ext "tommy_roundup_pow2_u32" [x] = pure ⟨.u32, roundupPow2U32 n⟩ := by
  have d := dec_u32 n h
  rw [Nat.add_sub_assoc (by decide)] at d
  have h0 : (n + (2 ^ 32 - 1)) % 2 ^ 32 < 2 ^ 32 := Nat.mod_lt _ (by decide)
  rw [run_fun rfl (show funs _ = some f_tommy_roundup_pow2_u32 from rfl)]
  simp only [execFun, f_tommy_roundup_pow2_u32, Stmt.list, bindParams, Option.map_some, lift_some, pure_bind, hx]
  have h1 : ∀ s, exec structs ext (run ext) (.seq (.expr (.assignOp .sub (.var "value") (.num 1))) s) [("value", .u32, [some n])] =
      exec structs ext (run ext) s [("value", .u32, [some ((n + (2 ^ 32 - 1)) % 2 ^ 32)])] := by
    intro s
    csimp [d]
  rw [h1, or_step32 ext _ _ h0 (by decide), or_step32 ext _ _ (orShr_lt h0) (by decide), or_step32 ext _ _ (orShr_lt (orShr_lt h0)) (by decide),
    or_step32 ext _ _ (orShr_lt (orShr_lt (orShr_lt h0))) (by decide), or_step32 ext _ _ (orShr_lt (orShr_lt (orShr_lt (orShr_lt h0)))) (by decide)]
  generalize hv : (orShr (orShr (orShr (orShr (orShr ((n + (2 ^ 32 - 1)) % 2 ^ 32) 1) 2) 4) 8) 16) = v
  rw [roundup32_eq, hv]
  csimp

omit [Arch] in
theorem roundup64_eq (n : Nat) : roundupPow2U64 n = ((orShr (orShr (orShr (orShr (orShr (orShr ((n + (2 ^ 64 - 1)) % 2 ^ 64) 1) 2) 4) 8) 16) 32) + 1) % 2 ^ 64 := by
  simp only [roundupPow2U64, orShr]

theorem run_roundup64 {n : Nat} {x : Val} (hx : conv .u64 x = ⟨.u64, n⟩) (h : n < 2 ^ 64) : run ext "tommy_roundup_pow2_u64" [x] = pure ⟨.u64, roundupPow2U64 n⟩ := by
  have d := dec_u64 n h
  rw [Nat.add_sub_assoc (by decide)] at d
  have h0 : (n + (2 ^ 64 - 1)) % 2 ^ 64 < 2 ^ 64 := Nat.mod_lt _ (by decide)
  rw [run_fun rfl (show funs _ = some f_tommy_roundup_pow2_u64 from rfl)]
  simp only [execFun, f_tommy_roundup_pow2_u64, Stmt.list, bindParams, Option.map_some, lift_some, pure_bind, hx]
  have h1 : ∀ s, exec structs ext (run ext) (.seq (.expr (.assignOp .sub (.var "value") (.num 1))) s) [("value", .u64, [some n])] =
      exec structs ext (run ext) s [("value", .u64, [some ((n + (2 ^ 64 - 1)) % 2 ^ 64)])] := by
    intro s
    csimp [d]
  rw [h1, or_step64 ext _ _ h0 (by decide), or_step64 ext _ _ (orShr_lt h0) (by decide), or_step64 ext _ _ (orShr_lt (orShr_lt h0)) (by decide),
    or_step64 ext _ _ (orShr_lt (orShr_lt (orShr_lt h0))) (by decide), or_step64 ext _ _ (orShr_lt (orShr_lt (orShr_lt (orShr_lt h0)))) (by decide),
    or_step64 ext _ _ (orShr_lt (orShr_lt (orShr_lt (orShr_lt (orShr_lt h0))))) (by decide)]
  generalize hv : (orShr (orShr (orShr (orShr (orShr (orShr ((n + (2 ^ 64 - 1)) % 2 ^ 64) 1) 2) 4) 8) 16) 32) = v
  rw [roundup64_eq, hv]
  csimp

/-- The type of the arguments of `tommy_roundup_pow2` and `tommy_ilog2`. -/
def bitTy : CTy := match ‹Arch› with
  | .w32 => .u32
  | .w64 => .u64

theorem conv_usize_bitTy (n : Nat) (h : n < 2 ^ sizeBit) : conv .usize ⟨bitTy, n⟩ = ⟨.usize, n⟩ := by
  unfold conv
  have e : (Val.mk bitTy n).int = n := if_neg (by unfold bitTy; cases ‹Arch› <;> exact fun h => nomatch h.1)
  rw [if_neg (by unfold bitTy; cases ‹Arch› <;> nofun), if_neg (by unfold bitTy; cases ‹Arch› <;> exact fun h => nomatch h.2), e, toNat_mod]
  exact congrArg _ (Nat.mod_eq_of_lt h)

theorem roundup_lt (n : Nat) : roundupPow2 n < 2 ^ sizeBit := by
  unfold roundupPow2 sizeBit
  cases ‹Arch›
  · exact Nat.mod_lt _ (by decide)
  · exact Nat.mod_lt _ (by decide)

theorem run_roundup {n : Nat} (h : n < 2 ^ sizeBit) : run ext m_tommy_roundup_pow2 [⟨.usize, n⟩] = pure ⟨bitTy, roundupPow2 n⟩ := by
  cases ‹Arch›
  · exact @run_roundup32 .w32 ext _ _ (@conv_u32_usize .w32 n h) h
  · exact @run_roundup64 .w64 ext _ _ (@conv_u64_usize .w64 n h) h

theorem xor_s32 (a b : Nat) : binop .xor ⟨.s32, a⟩ ⟨.s32, b⟩ = some ⟨.s32, a ^^^ b⟩ := by bin []

omit [Arch] in
theorem log2_lt_w {v w : Nat} (h0 : v ≠ 0) (h : v < 2 ^ w) : v.log2 < w := (Nat.log2_lt h0).2 h

theorem run_ilog32 {n : Nat} {x : Val} (hx : conv .u32 x = ⟨.u32, n⟩) (h : n < 2 ^ 32) (h0 : n ≠ 0) :
    run ext "tommy_ilog2_u32" [x] = pure ⟨.u32, n.log2⟩ := by
  have hb : run ext "__builtin_clz" [⟨.u32, n⟩] = pure ⟨.s32, 31 - n.log2⟩ := by
    rw [run_builtin rfl, conv_same, builtinClz_spec h h0]
    rfl
  have hl := log2_lt_w h0 h
  have e := xor_low 5 _ hl
  have e' : (31 - n.log2) ^^^ 31 = n.log2 := e
  have hl : n.log2 < 2147483648 := Nat.lt_trans hl (by decide)
  rw [run_fun rfl (show funs _ = some f_tommy_ilog2_u32 from rfl)]
  unfold f_tommy_ilog2_u32
  simp only [Stmt.list, execFun, bindParams, hx]
  csimp [hb, xor_s32, e', hl]

theorem run_ilog64 {n : Nat} {x : Val} (hx : conv .u64 x = ⟨.u64, n⟩) (h : n < 2 ^ 64) (h0 : n ≠ 0) :
    run ext "tommy_ilog2_u64" [x] = pure ⟨.u32, n.log2⟩ := by
  have hb : run ext "__builtin_clzll" [⟨.u64, n⟩] = pure ⟨.s32, 63 - n.log2⟩ := by
    rw [run_builtin rfl, conv_same, builtinClz_spec h h0]
    rfl
  have hl := log2_lt_w h0 h
  have e := xor_low 6 _ hl
  have e' : (63 - n.log2) ^^^ 63 = n.log2 := e
  have hl : n.log2 < 2147483648 := Nat.lt_trans hl (by decide)
  rw [run_fun rfl (show funs _ = some f_tommy_ilog2_u64 from rfl)]
  unfold f_tommy_ilog2_u64
  simp only [Stmt.list, execFun, bindParams, hx]
  csimp [hb, xor_s32, e', hl]

theorem run_ilog2 {n : Nat} (h : n < 2 ^ sizeBit) (h0 : n ≠ 0) : run ext m_tommy_ilog2 [⟨.usize, n⟩] = pure ⟨.u32, n.log2⟩ := by
  cases ‹Arch›
  · exact @run_ilog32 .w32 ext _ _ (@conv_u32_usize .w32 n h) h h0
  · exact @run_ilog64 .w64 ext _ _ (@conv_u64_usize .w64 n h) h h0

end Tommy.C
