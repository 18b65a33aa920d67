import Verif.Props.Bits
import Verif.Proof.Hash
import Verif.Model.Mem
import Verif.Model.List
/-
  C72: the variants of the code for the compilers and the processors.
-/
set_option autoImplicit false
namespace Tommy

theorem find_split {α : Type} {p : α → Bool} (as : List α) (x : α) (bs : List α) (h : ∀ a ∈ as, p a = false)
    (hx : p x = true) : (as ++ x :: bs).find? p = some x := by
  induction as with
  | nil => simp [hx]
  | cons a as ih =>
    rw [List.cons_append, List.find?_cons, h a (by simp)]
    exact ih fun b hb => h b (by simp [hb])

theorem bitScanReverse_spec {v w : Nat} (hv : v < 2 ^ w) (h0 : v ≠ 0) : bitScanReverse w v = some v.log2 := by
  have hk : v.log2 < w := (Nat.log2_lt h0).2 hv
  unfold bitScanReverse
  rw [range_split hk, List.reverse_append, List.reverse_cons, List.append_assoc, List.singleton_append]
  refine find_split _ _ _ (fun i hi => ?_) (Nat.testBit_log2 h0)
  simp only [List.mem_reverse, List.mem_map, List.mem_range] at hi
  obtain ⟨j, _, rfl⟩ := hi
  exact Nat.testBit_lt_two_pow
    (Nat.lt_of_lt_of_le Nat.lt_log2_self (Nat.pow_le_pow_right (by decide) (by omega)))

theorem bitScanForward_spec {v w k q : Nat} (hv : v < 2 ^ w) (e : v = 2 ^ k * (2 * q + 1)) :
    bitScanForward w v = some k := by
  have hk : k < w := by
    have : 2 ^ k ≤ v := by rw [e]; exact Nat.le_mul_of_pos_right _ (by omega)
    exact (Nat.pow_lt_pow_iff_right (by decide)).1 (Nat.lt_of_le_of_lt this hv)
  unfold bitScanForward
  rw [range_split hk]
  refine find_split _ _ _ (fun i hi => ?_) ?_
  · have hi := List.mem_range.1 hi
    rw [e, Nat.mul_comm, Nat.testBit_mul_two_pow]
    simp; omega
  · rw [e, Nat.mul_comm, Nat.testBit_mul_two_pow]
    simp

theorem ctz_spec (k q : Nat) : ctz (2 ^ k * (2 * q + 1)) = k := by
  induction k with
  | zero =>
    unfold ctz
    rw [dif_neg (by omega), if_pos (by omega)]
  | succ k ih =>
    have e : 2 ^ (k + 1) * (2 * q + 1) = 2 * (2 ^ k * (2 * q + 1)) := by rw [Nat.pow_succ, Nat.mul_comm (2 ^ k), Nat.mul_assoc]
    have h0 : 2 ^ k * (2 * q + 1) ≠ 0 := Nat.mul_ne_zero (Nat.two_pow_pos k).ne' (by omega)
    rw [e]
    unfold ctz
    rw [dif_neg (by omega), if_neg (by omega), Nat.mul_div_cancel_left _ (by decide), ih, Nat.add_comm]

/-- **C72** `tommy_ilog2` in the three variants, for both the builds, is the position of the most significant bit
    set, and the function `ilog2M` used by the models of the containers. -/
theorem C72_ilog2 [Arch] (c : Compiler) (v : Nat) (hv : v < 2 ^ sizeBit) (h0 : v ≠ 0) :
    ∃ r, ilog2V c v = some r ∧ 2 ^ r ≤ v ∧ v < 2 ^ (r + 1) ∧
      ∀ {σ : Type} (m : σ), ilog2M v m = some (r, m) := by
  refine ⟨v.log2, ?_, Nat.log2_self_le h0, Nat.lt_log2_self, fun m => ?_⟩
  · cases ‹Arch› <;> cases c
    · exact bitScanReverse_spec hv h0
    · exact (C45_gcc_u32 v hv h0).1.trans (ilog2U32_spec hv h0)
    · exact ilog2U32_spec hv h0
    · exact bitScanReverse_spec hv h0
    · exact (C45_gcc_u64 v hv h0).1.trans (ilog2U64_spec hv h0)
    · exact ilog2U64_spec hv h0
  · simp [ilog2M, ilog2, h0]

/-- **C72** `tommy_ctz` in the three variants, for both the builds, is the position of the least significant bit
    set, and the function `ctz` used by the model of the sort. -/
theorem C72_ctz [Arch] (c : Compiler) (v : Nat) (hv : v < 2 ^ sizeBit) (h0 : v ≠ 0) :
    ∃ r, ctzV c v = some r ∧ 2 ^ r ∣ v ∧ ¬ 2 ^ (r + 1) ∣ v ∧ r = ctz v := by
  obtain ⟨k, q, e⟩ := lowest_bit h0
  refine ⟨k, ?_, (lowest_dvd e).1, (lowest_dvd e).2, by rw [e, ctz_spec]⟩
  cases ‹Arch› <;> cases c
  · exact bitScanForward_spec hv e
  · exact (C45_gcc_u32 v hv h0).2.trans (ctzU32_spec hv e)
  · exact ctzU32_spec hv e
  · exact bitScanForward_spec hv e
  · exact (C45_gcc_u64 v hv h0).2.trans (ctzU64_spec hv e)
  · exact ctzU64_spec hv e

/-- Four bytes of a word, the least significant one first. -/
theorem append_le (b0 b1 b2 b3 : BitVec 8) : b3 ++ b2 ++ b1 ++ b0 = BitVec.ofNat 32 (Lookup3.le [b0, b1, b2, b3]) := by
  apply BitVec.eq_of_toNat_eq
  have l0 := b0.isLt; have l1 := b1.isLt; have l2 := b2.isLt; have l3 := b3.isLt
  have key : ∀ (x y : Nat), y < 2 ^ 8 → x <<< 8 ||| y = 256 * x + y := fun x y h => by
    rw [← Nat.shiftLeft_add_eq_or_of_lt h, Nat.shiftLeft_eq, Nat.mul_comm]
  simp only [BitVec.toNat_append, key _ _ l0, key _ _ l1, key _ _ l2, BitVec.toNat_ofNat, Lookup3.le]
  omega

/-- **C72** `tommy_le_uint32_read`: the load of the x86 is the same function as the four byte reads, in every memory
    and at every address; a byte that cannot be read is refused by both. -/
theorem C72_read (mem : Bytes) (p : Nat) : leReadX86 mem p = leRead mem p := by
  unfold leReadX86
  cases h0 : mem p with
  | none => simp only [leRead, Nat.add_zero, h0, Option.bind_eq_bind, Option.bind_none]
  | some b0 =>
    cases h1 : mem (p + 1) with
    | none => simp only [leRead, Nat.add_zero, h0, h1, Option.bind_eq_bind, Option.bind_none, Option.bind_some]
    | some b1 =>
      cases h2 : mem (p + 2) with
      | none => simp only [leRead, Nat.add_zero, h0, h1, h2, Option.bind_eq_bind, Option.bind_none, Option.bind_some]
      | some b2 =>
        cases h3 : mem (p + 3) with
        | none =>
          simp only [leRead, Nat.add_zero, h0, h1, h2, h3, Option.bind_eq_bind, Option.bind_none, Option.bind_some]
        | some b3 =>
          rw [leRead_eq h0 h1 h2 h3, ← append_le]
          rfl

/-! ### Non vacuity -/

/-- C72: a value scanned by the three variants, in both the builds. -/
example : (∀ c, @ilog2V .w64 c 0x00F0000000000010 = some 55 ∧ @ctzV .w64 c 0x00F0000000000010 = some 4) ∧
    ∀ c, @ilog2V .w32 c 0x00F00010 = some 23 ∧ @ctzV .w32 c 0x00F00010 = some 4 := by
  constructor <;> intro c <;> cases c <;> decide

/-- C72: without a bit set the MSVC and the GCC variants have no result, the portable one returns 0. -/
example : @ilog2V .w64 .msvc 0 = none ∧ @ilog2V .w64 .gnuc 0 = none ∧ @ilog2V .w64 .other 0 = some 0 := by decide

/-- C72: a not aligned read. -/
example : leReadX86 (fun i => [0x11#8, 0x22#8, 0x33#8, 0x44#8, 0x55#8][i]?) 1 = some 0x55443322#32 ∧
    leRead (fun i => [0x11#8, 0x22#8, 0x33#8, 0x44#8, 0x55#8][i]?) 1 = some 0x55443322#32 ∧
    leRead (fun i => [0x11#8, 0x22#8, 0x33#8, 0x44#8, 0x55#8][i]?) 2 = none := by decide

end Tommy
