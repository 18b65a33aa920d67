import Verif.Spec.IntHash
import Verif.Proof.IntHash
/-! The integer hashes as arithmetic, and their inverses (C69). -/
namespace Tommy
namespace IntHashSpec

theorem xorshr_toNat {w : Nat} (x : BitVec w) (k : Nat) : (x ^^^ (x >>> k)).toNat = x.toNat ^^^ x.toNat / 2 ^ k := by
  rw [BitVec.toNat_xor, BitVec.toNat_ushiftRight, Nat.shiftRight_eq_div_pow]

theorem xorshl_toNat {w : Nat} (x : BitVec w) (k : Nat) : (x ^^^ (x <<< k)).toNat = x.toNat ^^^ (2 ^ k * x.toNat % 2 ^ w) := by
  rw [BitVec.toNat_xor, BitVec.toNat_shiftLeft, Nat.shiftLeft_eq, Nat.mul_comm]

theorem inthashU32_eq (x : BitVec 32) : (inthashU32 x).toNat = jenkins x.toNat := by
  have m6 : ∀ x : BitVec 32, (x - (x <<< 6)).toNat = x.toNat * (2 ^ 32 - 63) % 2 ^ 32 := fun x => by
    have := x.isLt
    rw [BitVec.toNat_sub, BitVec.toNat_shiftLeft, Nat.shiftLeft_eq]; omega
  have m9 : ∀ x : BitVec 32, (x - (x <<< 9)).toNat = x.toNat * (2 ^ 32 - 511) % 2 ^ 32 := fun x => by
    have := x.isLt
    rw [BitVec.toNat_sub, BitVec.toNat_shiftLeft, Nat.shiftLeft_eq]; omega
  have m3 : ∀ x : BitVec 32, (x - (x <<< 3)).toNat = x.toNat * (2 ^ 32 - 7) % 2 ^ 32 := fun x => by
    have := x.isLt
    rw [BitVec.toNat_sub, BitVec.toNat_shiftLeft, Nat.shiftLeft_eq]; omega
  unfold inthashU32 jenkins
  simp only [xorshr_toNat, xorshl_toNat, m6, m9, m3]

theorem inthashU64_eq (x : BitVec 64) : (inthashU64 x).toNat = wang x.toNat := by
  have m0 : ∀ x : BitVec 64, (~~~x + (x <<< 21)).toNat = (x.toNat * (2 ^ 21 - 1) + (2 ^ 64 - 1)) % 2 ^ 64 := fun x => by
    have := x.isLt
    rw [BitVec.toNat_add, BitVec.toNat_not, BitVec.toNat_shiftLeft, Nat.shiftLeft_eq]; omega
  have m1 : ∀ x : BitVec 64, (x + (x <<< 3) + (x <<< 8)).toNat = x.toNat * 265 % 2 ^ 64 := fun x => by
    have := x.isLt
    simp only [BitVec.toNat_add, BitVec.toNat_shiftLeft, Nat.shiftLeft_eq]; omega
  have m2 : ∀ x : BitVec 64, (x + (x <<< 2) + (x <<< 4)).toNat = x.toNat * 21 % 2 ^ 64 := fun x => by
    have := x.isLt
    simp only [BitVec.toNat_add, BitVec.toNat_shiftLeft, Nat.shiftLeft_eq]; omega
  have m3 : ∀ x : BitVec 64, (x + (x <<< 31)).toNat = x.toNat * (2 ^ 31 + 1) % 2 ^ 64 := fun x => by
    have := x.isLt
    simp only [BitVec.toNat_add, BitVec.toNat_shiftLeft, Nat.shiftLeft_eq]; omega
  unfold inthashU64 wang
  simp only [xorshr_toNat, m0, m1, m2, m3]

/-- Each step of `unxor` makes right `k` more bits from the highest. -/
theorem unxor_shr {w k x : Nat} (hx : x < 2 ^ w) (n : Nat) (hn : w ≤ (n + 1) * k) : unxor (· / 2 ^ k) (x ^^^ x / 2 ^ k) n = x := by
  have key : ∀ n i, w ≤ i + (n + 1) * k → (unxor (· / 2 ^ k) (x ^^^ x / 2 ^ k) n).testBit i = x.testBit i := by
    intro n
    induction n with
    | zero =>
      intro i hi
      have h1 : x.testBit (k + i) = false := Nat.testBit_lt_two_pow (Nat.lt_of_lt_of_le hx (Nat.pow_le_pow_right (by omega) (by omega)))
      rw [unxor, Nat.testBit_xor, Nat.testBit_div_two_pow, Nat.add_comm, h1, Bool.xor_false]
    | succ n ih =>
      intro i hi
      have h1 := ih (k + i) (by rw [Nat.succ_mul] at hi; omega)
      rw [unxor, Nat.testBit_xor, Nat.testBit_xor, Nat.testBit_div_two_pow, Nat.testBit_div_two_pow, Nat.add_comm i k, h1, Bool.xor_assoc,
        Bool.xor_self, Bool.xor_false]
  exact Nat.eq_of_testBit_eq fun i => key n i (by omega)

/-- Each step of `unxor` makes right `k` more bits from the lowest. -/
theorem unxor_shl {w k x : Nat} (hx : x < 2 ^ w) (n : Nat) (hn : w ≤ (n + 1) * k) :
    unxor (2 ^ k * · % 2 ^ w) (x ^^^ (2 ^ k * x % 2 ^ w)) n = x := by
  have hb : ∀ y i, (2 ^ k * y % 2 ^ w).testBit i = (decide (i < w) && (decide (k ≤ i) && y.testBit (i - k))) := fun y i => by
    rw [Nat.testBit_mod_two_pow, Nat.testBit_two_pow_mul]
  have key : ∀ n i, i < (n + 1) * k → (unxor (2 ^ k * · % 2 ^ w) (x ^^^ (2 ^ k * x % 2 ^ w)) n).testBit i = x.testBit i := by
    intro n
    induction n with
    | zero =>
      intro i hi
      have h1 : decide (k ≤ i) = false := by simp; omega
      rw [unxor, Nat.testBit_xor, hb, h1]
      simp
    | succ n ih =>
      intro i hi
      rw [unxor, Nat.testBit_xor, Nat.testBit_xor, hb, hb]
      by_cases hk : k ≤ i
      · rw [ih (i - k) (by rw [Nat.succ_mul] at hi; omega), Bool.xor_assoc, Bool.xor_self, Bool.xor_false]
      · simp [hk]
  have lt : ∀ n, unxor (2 ^ k * · % 2 ^ w) (x ^^^ (2 ^ k * x % 2 ^ w)) n < 2 ^ w := by
    have h0 : x ^^^ (2 ^ k * x % 2 ^ w) < 2 ^ w := Nat.xor_lt_two_pow hx (Nat.mod_lt _ (Nat.two_pow_pos w))
    intro n
    cases n with
    | zero => exact h0
    | succ n => exact Nat.xor_lt_two_pow h0 (Nat.mod_lt _ (Nat.two_pow_pos w))
  refine Nat.eq_of_testBit_eq fun i => ?_
  by_cases hi : i < w
  · exact key n i (by omega)
  · have hp : 2 ^ w ≤ 2 ^ i := Nat.pow_le_pow_right (by omega) (by omega)
    rw [Nat.testBit_lt_two_pow (Nat.lt_of_lt_of_le (lt n) hp), Nat.testBit_lt_two_pow (Nat.lt_of_lt_of_le hx hp)]

theorem xor_div_lt {w k x : Nat} (hx : x < 2 ^ w) : x ^^^ x / 2 ^ k < 2 ^ w :=
  Nat.xor_lt_two_pow hx (Nat.lt_of_le_of_lt (Nat.div_le_self _ _) hx)

theorem unmul {m c d x : Nat} (h : c * d % m = 1 % m) (hx : x < m) : (x * c % m) * d % m = x := by
  rw [Nat.mod_mul_mod, Nat.mul_assoc, Nat.mul_mod, h, ← Nat.mul_mod, Nat.mul_one, Nat.mod_eq_of_lt hx]

theorem unjenkins_jenkins {k : Nat} (hk : k < 2 ^ 32) : unjenkins (jenkins k) = k := by
  have p : 0 < 2 ^ 32 := by decide
  have lm : ∀ x, x % 2 ^ 32 < 2 ^ 32 := fun x => Nat.mod_lt _ p
  have lxl : ∀ {x y}, x < 2 ^ 32 → x ^^^ (y % 2 ^ 32) < 2 ^ 32 := fun hx => Nat.xor_lt_two_pow hx (lm _)
  unfold unjenkins jenkins
  simp only
  have r15 := fun {x} (hx : x < 2 ^ 32) => unxor_shr (k := 15) hx 2 (by decide)
  have l10 := fun {x} (hx : x < 2 ^ 32) => unxor_shl (k := 10) hx 3 (by decide)
  have l4 := fun {x} (hx : x < 2 ^ 32) => unxor_shl (k := 4) hx 7 (by decide)
  have r17 := fun {x} (hx : x < 2 ^ 32) => unxor_shr (k := 17) hx 1 (by decide)
  simp only [show 2 ^ 15 = 32768 from rfl, show 2 ^ 10 = 1024 from rfl, show 2 ^ 4 = 16 from rfl, show 2 ^ 17 = 131072 from rfl] at r15 l10 l4 r17
  rw [r15 (lxl (lm _)), l10 (lm _), unmul (by decide) (lxl (lm _)), l4 (lm _), unmul (by decide) (xor_div_lt (k := 17) (lm _)), r17 (lm _),
    unmul (by decide) hk]

theorem unwang_wang {k : Nat} (hk : k < 2 ^ 64) : unwang (wang k) = k := by
  have p : 0 < 2 ^ 64 := by decide
  have lm : ∀ x, x % 2 ^ 64 < 2 ^ 64 := fun x => Nat.mod_lt _ p
  unfold unwang wang
  simp only
  have r28 := fun {x} (hx : x < 2 ^ 64) => unxor_shr (k := 28) hx 2 (by decide)
  have r14 := fun {x} (hx : x < 2 ^ 64) => unxor_shr (k := 14) hx 4 (by decide)
  have r24 := fun {x} (hx : x < 2 ^ 64) => unxor_shr (k := 24) hx 2 (by decide)
  simp only [show 2 ^ 28 = 268435456 from rfl, show 2 ^ 14 = 16384 from rfl, show 2 ^ 24 = 16777216 from rfl] at r28 r14 r24
  rw [unmul (by decide) (xor_div_lt (k := 28) (lm _)), r28 (lm _), unmul (by decide) (xor_div_lt (k := 14) (lm _)), r14 (lm _),
    unmul (by decide) (xor_div_lt (k := 24) (lm _)), r24 (lm _)]
  omega

end IntHashSpec
end Tommy
