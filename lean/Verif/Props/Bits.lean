import Verif.Proof.Bits
/-!
  Properties C45 - C47 (bit operations of tommytypes.h).
-/
set_option autoImplicit false
namespace Tommy

theorem log2_bounds {v : Nat} (h0 : v ≠ 0) : 2 ^ v.log2 ≤ v ∧ v < 2 ^ (v.log2 + 1) :=
  ⟨Nat.log2_self_le h0, Nat.lt_log2_self⟩

theorem lowest_dvd {v k q : Nat} (e : v = 2 ^ k * (2 * q + 1)) : 2 ^ k ∣ v ∧ ¬ 2 ^ (k + 1) ∣ v := by
  refine ⟨⟨_, e⟩, ?_⟩
  rintro ⟨c, hc⟩
  rw [hc, Nat.pow_succ, Nat.mul_assoc] at e
  have := Nat.eq_of_mul_eq_mul_left (Nat.two_pow_pos k) e
  omega

/-- **C45** `tommy_ilog2_u32`: the most significant bit set. -/
theorem C45_ilog2_u32 (v : Nat) (hv : v < 2 ^ 32) (h0 : v ≠ 0) :
    ∃ r, ilog2U32 v = some r ∧ 2 ^ r ≤ v ∧ v < 2 ^ (r + 1) :=
  ⟨_, ilog2U32_spec hv h0, log2_bounds h0⟩

/-- **C45** `tommy_ilog2_u64`. -/
theorem C45_ilog2_u64 (v : Nat) (hv : v < 2 ^ 64) (h0 : v ≠ 0) :
    ∃ r, ilog2U64 v = some r ∧ 2 ^ r ≤ v ∧ v < 2 ^ (r + 1) :=
  ⟨_, ilog2U64_spec hv h0, log2_bounds h0⟩

/-- **C45** `tommy_ctz_u32`: the least significant bit set. -/
theorem C45_ctz_u32 (v : Nat) (hv : v < 2 ^ 32) (h0 : v ≠ 0) :
    ∃ r, ctzU32 v = some r ∧ 2 ^ r ∣ v ∧ ¬ 2 ^ (r + 1) ∣ v := by
  obtain ⟨k, q, e⟩ := lowest_bit h0
  exact ⟨k, ctzU32_spec hv e, lowest_dvd e⟩

/-- **C45** `tommy_ctz_u64`. -/
theorem C45_ctz_u64 (v : Nat) (hv : v < 2 ^ 64) (h0 : v ≠ 0) :
    ∃ r, ctzU64 v = some r ∧ 2 ^ r ∣ v ∧ ¬ 2 ^ (r + 1) ∣ v := by
  obtain ⟨k, q, e⟩ := lowest_bit h0
  exact ⟨k, ctzU64_spec hv e, lowest_dvd e⟩

theorem pow_lt_of_ceil {v n : Nat} (h1 : 2 ≤ v) (hv : v ≤ 2 ^ n) : 2 ^ ((v - 1).log2 + 1) ≤ 2 ^ n :=
  (pow2_ceil h1).2 n hv

/-- **C46** `tommy_roundup_pow2_u32`: the smallest power of 2 not less than the argument. -/
theorem C46_roundup_u32 (v : Nat) (h1 : 1 ≤ v) (hv : v ≤ 2 ^ 31) :
    ∃ k, roundupPow2U32 v = 2 ^ k ∧ v ≤ 2 ^ k ∧ ∀ j, v ≤ 2 ^ j → k ≤ j := by
  by_cases h2 : v = 1
  · subst h2; exact ⟨0, by decide, by decide, fun j _ => Nat.zero_le j⟩
  · have hle := pow_lt_of_ceil (by omega : 2 ≤ v) hv
    refine ⟨(v - 1).log2 + 1, ?_, (pow2_ceil (by omega)).1, fun j hj => ?_⟩
    · rw [roundupPow2U32_spec (by omega) (by omega), Nat.mod_eq_of_lt (by omega)]
    · exact (Nat.pow_le_pow_iff_right (by omega)).1 ((pow2_ceil (by omega : 2 ≤ v)).2 j hj)

/-- **C46** `tommy_roundup_pow2_u64`. -/
theorem C46_roundup_u64 (v : Nat) (h1 : 1 ≤ v) (hv : v ≤ 2 ^ 63) :
    ∃ k, roundupPow2U64 v = 2 ^ k ∧ v ≤ 2 ^ k ∧ ∀ j, v ≤ 2 ^ j → k ≤ j := by
  by_cases h2 : v = 1
  · subst h2; exact ⟨0, by decide, by decide, fun j _ => Nat.zero_le j⟩
  · have hle := pow_lt_of_ceil (by omega : 2 ≤ v) hv
    refine ⟨(v - 1).log2 + 1, ?_, (pow2_ceil (by omega)).1, fun j hj => ?_⟩
    · rw [roundupPow2U64_spec (by omega) (by omega), Nat.mod_eq_of_lt (by omega)]
    · exact (Nat.pow_le_pow_iff_right (by omega)).1 ((pow2_ceil (by omega : 2 ≤ v)).2 j hj)

/-- C46: what happens to the other arguments: the result wraps to 0 (for 0 it is 0 too). -/
theorem C46_roundup_wraps (v : Nat) (h : v = 0 ∨ 2 ^ 63 < v) (hv : v < 2 ^ 64) : roundupPow2U64 v = 0 := by
  rcases h with rfl | h
  · decide
  · rw [roundupPow2U64_spec (by omega) hv]
    have h1 : (v - 1).log2 + 1 = 64 := by
      have a : 63 ≤ (v - 1).log2 := (Nat.le_log2 (by omega)).2 (by omega)
      have b : (v - 1).log2 < 64 := (Nat.log2_lt (by omega)).2 (by omega)
      omega
    rw [h1, Nat.mod_self]

/-- C46: the same for 32 bit. -/
theorem C46_roundup_wraps_u32 (v : Nat) (h : v = 0 ∨ 2 ^ 31 < v) (hv : v < 2 ^ 32) : roundupPow2U32 v = 0 := by
  rcases h with rfl | h
  · decide
  · rw [roundupPow2U32_spec (by omega) hv]
    have h1 : (v - 1).log2 + 1 = 32 := by
      have a : 31 ≤ (v - 1).log2 := (Nat.le_log2 (by omega)).2 (by omega)
      have b : (v - 1).log2 < 32 := (Nat.log2_lt (by omega)).2 (by omega)
      omega
    rw [h1, Nat.mod_self]

/-- C46 for `tommy_roundup_pow2`, in both the builds. -/
theorem C46_roundup [Arch] (v : Nat) (h1 : 1 ≤ v) (hv : v ≤ 2 ^ (sizeBit - 1)) :
    ∃ k, roundupPow2 v = 2 ^ k ∧ v ≤ 2 ^ k ∧ ∀ j, v ≤ 2 ^ j → k ≤ j := by
  cases ‹Arch›
  · exact C46_roundup_u32 v h1 hv
  · exact C46_roundup_u64 v h1 hv

/-- **C47** `tommy_haszero_u32` is exact. -/
theorem C47_haszero (v : Nat) (hv : v < 2 ^ 32) :
    hasZeroU32 v = true ↔ v % 256 = 0 ∨ v / 256 % 256 = 0 ∨ v / 65536 % 256 = 0 ∨ v / 16777216 = 0 := by
  rw [hasZeroU32_spec hv]
  constructor
  · rintro ⟨i, hi, h⟩
    match i, hi with
    | 0, _ => left; simpa using h
    | 1, _ => right; left; simpa using h
    | 2, _ => right; right; left; simpa using h
    | 3, _ =>
      right; right; right
      have : v / 16777216 % 256 = 0 := by simpa using h
      omega
  · rintro (h | h | h | h)
    · exact ⟨0, by omega, by simpa using h⟩
    · exact ⟨1, by omega, by simpa using h⟩
    · exact ⟨2, by omega, by simpa using h⟩
    · exact ⟨3, by omega, by rw [show (256 : Nat) ^ 3 = 16777216 by decide, h]⟩

/-- Length of the prefix where a test fails, when it succeeds first at the position `k`. -/
theorem takeWhile_length {α : Type} {p : α → Bool} (as : List α) (x : α) (bs : List α) (h : ∀ a ∈ as, p a = true)
    (hx : p x = false) : ((as ++ x :: bs).takeWhile p).length = as.length := by
  induction as with
  | nil => simp [hx]
  | cons a as ih =>
    simp only [List.cons_append, List.takeWhile_cons, h a (by simp), if_true, List.length_cons]
    rw [ih fun b hb => h b (by simp [hb])]

theorem range_split {k w : Nat} (h : k < w) :
    List.range w = List.range k ++ k :: (List.range (w - k - 1)).map (k + 1 + ·) := by
  have e : w = k + (1 + (w - k - 1)) := by omega
  conv => lhs; rw [e]
  rw [List.range_add, List.range_add]
  simp [List.map_map, Function.comp_def, Nat.add_assoc]

theorem builtinClz_spec {v w : Nat} (hv : v < 2 ^ w) (h0 : v ≠ 0) : builtinClz w v = some (w - 1 - v.log2) := by
  have hk : v.log2 < w := (Nat.log2_lt h0).2 hv
  unfold builtinClz
  rw [if_neg h0, range_split hk, List.reverse_append, List.reverse_cons, List.append_assoc]
  rw [List.singleton_append, takeWhile_length]
  · simp; omega
  · intro i hi
    simp only [List.mem_reverse, List.mem_map, List.mem_range] at hi
    obtain ⟨j, _, rfl⟩ := hi
    rw [Nat.testBit_lt_two_pow]
    · rfl
    · exact Nat.lt_of_lt_of_le Nat.lt_log2_self (Nat.pow_le_pow_right (by decide) (by omega))
  · rw [Nat.testBit_log2 h0]; rfl

theorem builtinCtz_spec {v w k q : Nat} (hv : v < 2 ^ w) (e : v = 2 ^ k * (2 * q + 1)) : builtinCtz w v = some k := by
  have h0 : v ≠ 0 := by rw [e]; have := Nat.two_pow_pos k; exact Nat.mul_ne_zero (by omega) (by omega)
  have hk : k < w := by
    have : 2 ^ k ≤ v := by rw [e]; exact Nat.le_mul_of_pos_right _ (by omega)
    exact (Nat.pow_lt_pow_iff_right (by decide)).1 (Nat.lt_of_le_of_lt this hv)
  unfold builtinCtz
  rw [if_neg h0, range_split hk, takeWhile_length]
  · simp
  · intro i hi
    have hi := List.mem_range.1 hi
    rw [e, Nat.mul_comm, Nat.testBit_mul_two_pow]
    simp; omega
  · rw [e, Nat.mul_comm, Nat.testBit_mul_two_pow]
    simp

theorem xor_low (n : Nat) : ∀ k, k < 2 ^ n → (2 ^ n - 1 - k) ^^^ (2 ^ n - 1) = k := by
  intro k hk
  apply Nat.eq_of_testBit_eq
  intro i
  rw [Nat.testBit_xor, Nat.sub_sub, Nat.add_comm 1 k, Nat.testBit_two_pow_sub_succ hk, Nat.testBit_two_pow_sub_one]
  by_cases h : i < n
  · simp [h]
  · simp only [h, decide_false, Bool.false_and, Bool.false_bne]
    rw [Nat.testBit_lt_two_pow]
    exact Nat.lt_of_lt_of_le hk (Nat.pow_le_pow_right (by decide) (by omega))

/-- C45, the branches of GCC return the same values as the portable ones. -/
theorem C45_gcc_u32 (v : Nat) (hv : v < 2 ^ 32) (h0 : v ≠ 0) : ilog2U32Gcc v = ilog2U32 v ∧ ctzU32Gcc v = ctzU32 v := by
  constructor
  · rw [ilog2U32_spec hv h0, ilog2U32Gcc, builtinClz_spec hv h0]
    exact congrArg some (xor_low 5 _ ((Nat.log2_lt h0).2 hv))
  · obtain ⟨k, q, e⟩ := lowest_bit h0
    rw [ctzU32_spec hv e]; exact builtinCtz_spec hv e

/-- C45, the branches of GCC with 64 bits. -/
theorem C45_gcc_u64 (v : Nat) (hv : v < 2 ^ 64) (h0 : v ≠ 0) : ilog2U64Gcc v = ilog2U64 v ∧ ctzU64Gcc v = ctzU64 v := by
  constructor
  · rw [ilog2U64_spec hv h0, ilog2U64Gcc, builtinClz_spec hv h0]
    exact congrArg some (xor_low 6 _ ((Nat.log2_lt h0).2 hv))
  · obtain ⟨k, q, e⟩ := lowest_bit h0
    rw [ctzU64_spec hv e]; exact builtinCtz_spec hv e

/-! ### Non vacuity -/

example : ilog2U32Gcc 0x00F00001 = some 23 ∧ ctzU64Gcc 0x00F0000000000000 = some 52 := by decide

example : ilog2U32 0x80000001 = some 31 := by decide
example : ilog2U64 0x8000000100000000 = some 63 := by decide
example : ctzU32 0x00F00000 = some 20 := by decide
example : ctzU64 0x00F0000000000000 = some 52 := by decide
example : roundupPow2U32 1000 = 1024 ∧ roundupPow2U64 (2 ^ 40 + 1) = 2 ^ 41 := by decide
example : hasZeroU32 0x01800080 = true ∧ hasZeroU32 0x01800180 = false := by decide

end Tommy
