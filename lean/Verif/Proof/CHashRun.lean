import Verif.Proof.CHashStr
import Verif.Proof.AllocMem
import Verif.Spec.CHash
/-! The functions of tommyhash.c on a key in memory, in the two variants of the text. -/
set_option autoImplicit false
set_option linter.unusedSectionVars false
namespace Tommy.C
open Src
variable [Arch] (ext : Ext)

variable {w : BMem} {p : Nat} {l : List (BitVec 8)}

theorem KeyAt.acc (h : KeyAt w p l) {i k : Nat} (hk : 0 < k) (hi : i + k ≤ l.length) : w.mem.acc (p + i) k = true := by
  obtain ⟨b, n, h1, h2, h3⟩ := h.live (by intro e; rw [e] at hi; simp at hi; omega)
  exact AllocSpec.acc_of h1 (by omega) (by omega)

theorem KeyAt.adr (h : KeyAt w p l) {i : Nat} (hi : i < l.length) : adr p i = p + i :=
  Nat.mod_eq_of_lt (by have := h.fits; omega)

theorem KeyAt.byte (h : KeyAt w p l) (i : Nat) : Rd w (bgetN 1 (C.adr p i)) ((l[i]?).map BitVec.toNat) := by
  intro v e
  by_cases hi : i < l.length
  · rw [List.getElem?_eq_getElem hi] at e
    cases e
    rw [h.adr hi, bgetN, if_pos (h.acc (by decide) (by omega))]
    simp only [rdN, Nat.mul_zero, Nat.add_zero, h.val i hi]
  · rw [List.getElem?_eq_none (by omega)] at e
    cases e

theorem run_x86 {f : String} {vs : List Val} {d : Fun} (hb : builtin f vs = none) (hn : f ≠ "tommy_le_uint32_read") (hf : funs f = some d) :
    runX86 ext f vs = execFun structs ext (runX86 ext) d vs := by
  rw [runX86.eq_1, hb, if_neg hn, hf]

theorem run_x86_le (vs : List Val) : runX86 ext "tommy_le_uint32_read" vs = execFun structs ext (runX86 ext) f_tommy_le_uint32_read_x86 vs := by
  rw [runX86.eq_1, show builtin "tommy_le_uint32_read" vs = none from rfl, if_pos rfl]

theorem KeyAt.src (h : KeyAt w p l) : Src (run ext) w p (fun i => l[i]?) where
  le t i := by
    rw [run_fun rfl (show funs _ = some f_tommy_le_uint32_read from rfl)]
    exact exec_le ext _ h.byte t i
  byte := h.byte

omit [Arch] in
theorem le_bytes (b0 b1 b2 b3 : BitVec 8) :
    (u8to32 b0 + (u8to32 b1 <<< 8) + (u8to32 b2 <<< 16) + (u8to32 b3 <<< 24)).toNat = b0.toNat + 256 * (b1.toNat + 256 * (b2.toNat + 256 * b3.toNat)) := by
  have h0 := b0.isLt
  have h1 := b1.isLt
  have h2 := b2.isLt
  have h3 := b3.isLt
  simp only [u8to32, BitVec.toNat_add, BitVec.toNat_shiftLeft, BitVec.toNat_setWidth, Nat.shiftLeft_eq]
  omega

theorem KeyAt.srcX86 (h : KeyAt w p l) : Src (runX86 ext) w p (fun i => l[i]?) where
  le t i := by
    rw [run_x86_le]
    intro v e
    by_cases hi : i + 4 ≤ l.length
    · unfold leRead at e
      simp only [List.getElem?_eq_getElem (show i + 0 < l.length by omega), List.getElem?_eq_getElem (show i + 1 < l.length by omega),
        List.getElem?_eq_getElem (show i + 2 < l.length by omega), List.getElem?_eq_getElem (show i + 3 < l.length by omega)] at e
      have e : (⟨.u32, _⟩ : Val) = v := Option.some.inj e
      have ha := h.acc (i := i) (k := 4) (by decide) hi
      have hr : bgetN 4 (C.adr p i) w = some (v.v, w) := by
        rw [h.adr (by omega), bgetN, if_pos ha, ← e, le_bytes]
        simp only [rdN, Nat.add_assoc, Nat.mul_zero, Nat.add_zero, h.val _ (show i < l.length by omega), h.val _ (show i + 1 < l.length by omega),
          h.val _ (show i + (1 + 1) < l.length by omega), h.val _ (show i + (1 + (1 + 1)) < l.length by omega)]
      unfold f_tommy_le_uint32_read_x86
      simp only [Stmt.list]
      csimp
      show (bgetN 4 (C.adr p i) w).bind _ = _
      rw [hr, ← e]
      rfl
    · have : (fun i => l[i]?) (i + 3) = none := List.getElem?_eq_none (by omega)
      unfold leRead at e
      rw [this] at e
      cases h0 : l[i + 0]? <;> cases h1 : l[i + 1]? <;> cases h2 : l[i + 2]? <;> simp [h1, h2] at e
  byte := h.byte

theorem zero_run : IsZero (run ext) := fun x => by
  rw [run_fun rfl (show funs _ = some f_tommy_haszero_u32 from rfl)]
  exact exec_haszero ext _ x

theorem zero_x86 : IsZero (runX86 ext) := fun x => by
  rw [run_x86 ext rfl (by decide) (show funs _ = some f_tommy_haszero_u32 from rfl)]
  exact exec_haszero ext _ x

theorem run_ctz32 {n : Nat} (h0 : n ≠ 0) : ∃ r, run ext "tommy_ctz_u32" [⟨.u32, n⟩] = pure ⟨.u32, r⟩ ∧ ctzU32Gcc n = some r := by
  obtain ⟨r, hr⟩ : ∃ r, builtinCtz 32 n = some r := by rw [builtinCtz, if_neg h0]; exact ⟨_, rfl⟩
  have hl : r < 2147483648 := by
    have e : r = ((List.range 32).takeWhile fun i => !n.testBit i).length := by
      rw [builtinCtz, if_neg h0] at hr
      exact (Option.some.inj hr).symm
    have := ((List.range 32).takeWhile_sublist (fun i => !n.testBit i)).length_le
    rw [List.length_range] at this
    omega
  refine ⟨r, ?_, hr⟩
  have hb : run ext "__builtin_ctz" [⟨.u32, n⟩] = pure ⟨.s32, r⟩ := by
    rw [run_builtin rfl, conv_same, hr]
    rfl
  rw [run_fun rfl (show funs _ = some f_tommy_ctz_u32 from rfl)]
  unfold f_tommy_ctz_u32
  simp only [Stmt.list]
  csimp [hb, hl]

theorem run_ctz64 {n : Nat} (h0 : n ≠ 0) : ∃ r, run ext "tommy_ctz_u64" [⟨.u64, n⟩] = pure ⟨.u32, r⟩ ∧ ctzU64Gcc n = some r := by
  obtain ⟨r, hr⟩ : ∃ r, builtinCtz 64 n = some r := by rw [builtinCtz, if_neg h0]; exact ⟨_, rfl⟩
  have hl : r < 2147483648 := by
    have e : r = ((List.range 64).takeWhile fun i => !n.testBit i).length := by
      rw [builtinCtz, if_neg h0] at hr
      exact (Option.some.inj hr).symm
    have := ((List.range 64).takeWhile_sublist (fun i => !n.testBit i)).length_le
    rw [List.length_range] at this
    omega
  refine ⟨r, ?_, hr⟩
  have hb : run ext "__builtin_ctzll" [⟨.u64, n⟩] = pure ⟨.s32, r⟩ := by
    rw [run_builtin rfl, conv_same, hr]
    rfl
  rw [run_fun rfl (show funs _ = some f_tommy_ctz_u64 from rfl)]
  unfold f_tommy_ctz_u64
  simp only [Stmt.list]
  csimp [hb, hl]

end Tommy.C
