import Verif.Model.Bits
import Mathlib.Tactic.NormNum
/-! The bit hacks. -/
namespace Tommy

/-- `v` has the bit `i` set when `w` has a bit set in `i .. i + s - 1`. -/
def Smear (w v s : Nat) : Prop := ∀ i, v.testBit i = true ↔ ∃ j, j < s ∧ w.testBit (i + j) = true

theorem Smear.start (w : Nat) : Smear w w 1 := by
  intro i
  constructor
  · intro h; exact ⟨0, by omega, h⟩
  · rintro ⟨j, hj, h⟩
    obtain rfl : j = 0 := by omega
    exact h

theorem Smear.next {w v s t : Nat} (h : Smear w v s) (ht : t = 2 * s) : Smear w (v ||| v >>> s) t := by
  intro i
  rw [Nat.testBit_or, Nat.testBit_shiftRight, Bool.or_eq_true, h i, h (s + i)]
  constructor
  · rintro (⟨j, hj, hb⟩ | ⟨j, hj, hb⟩)
    · exact ⟨j, by omega, hb⟩
    · exact ⟨s + j, by omega, by rw [← hb]; congr 1; omega⟩
  · rintro ⟨j, hj, hb⟩
    by_cases hjs : j < s
    · exact Or.inl ⟨j, hjs, hb⟩
    · exact Or.inr ⟨j - s, by omega, by rw [← hb]; congr 1; omega⟩

theorem Smear.eq {w v s : Nat} (h : Smear w v s) (hw : w < 2 ^ s) (h0 : w ≠ 0) :
    v = 2 ^ (w.log2 + 1) - 1 := by
  apply Nat.eq_of_testBit_eq
  intro i
  rw [Nat.testBit_two_pow_sub_one]
  have hl : w.log2 < s := (Nat.log2_lt h0).2 hw
  by_cases hi : i < w.log2 + 1
  · rw [decide_eq_true hi]
    refine (h i).2 ⟨w.log2 - i, by omega, ?_⟩
    have e : i + (w.log2 - i) = w.log2 := by omega
    rw [e]
    exact Nat.testBit_log2 h0
  · rw [decide_eq_false hi]
    rw [Bool.eq_false_iff]
    intro hv
    obtain ⟨j, hj, hb⟩ := (h i).1 hv
    have : w < 2 ^ (i + j) := Nat.lt_of_lt_of_le (Nat.lt_log2_self) (Nat.pow_le_pow_right (by omega) (by omega))
    rw [Nat.testBit_lt_two_pow this] at hb
    exact absurd hb (by simp)

theorem smear32 {w : Nat} (hw : w < 2 ^ 32) (h0 : w ≠ 0) :
    (let value := w ||| (w >>> 1)
     let value := value ||| (value >>> 2)
     let value := value ||| (value >>> 4)
     let value := value ||| (value >>> 8)
     value ||| (value >>> 16)) = 2 ^ (w.log2 + 1) - 1 :=
  ((((((Smear.start w).next rfl).next rfl).next rfl).next rfl).next rfl).eq hw h0

theorem smear64 {w : Nat} (hw : w < 2 ^ 64) (h0 : w ≠ 0) :
    (let value := w ||| (w >>> 1)
     let value := value ||| (value >>> 2)
     let value := value ||| (value >>> 4)
     let value := value ||| (value >>> 8)
     let value := value ||| (value >>> 16)
     value ||| (value >>> 32)) = 2 ^ (w.log2 + 1) - 1 :=
  (((((((Smear.start w).next rfl).next rfl).next rfl).next rfl).next rfl).next rfl).eq hw h0

theorem deBruijnIlog2_spec : ∀ l, l < 32 →
    deBruijnIlog2[(((2 ^ (l + 1) - 1) * 0x07C4ACDD) % 2 ^ 32) >>> 27]? = some l := by decide

theorem ilog2U32_spec {v : Nat} (hv : v < 2 ^ 32) (h0 : v ≠ 0) : ilog2U32 v = some v.log2 := by
  have := smear32 hv h0
  simp only at this
  unfold ilog2U32
  simp only
  rw [this]
  exact deBruijnIlog2_spec _ ((Nat.log2_lt h0).2 hv)

theorem low32 (v : Nat) : v &&& 0xFFFFFFFF = v % 2 ^ 32 :=
  Nat.and_two_pow_sub_one_eq_mod v 32

theorem ilog2U64_spec {v : Nat} (hv : v < 2 ^ 64) (h0 : v ≠ 0) : ilog2U64 v = some v.log2 := by
  unfold ilog2U64
  simp only [low32, Nat.shiftRight_eq_div_pow]
  have hh : v / 2 ^ 32 < 2 ^ 32 := by omega
  rw [Nat.mod_eq_of_lt hh]
  by_cases h : v / 2 ^ 32 = 0
  · rw [if_neg (by simpa using h)]
    have : v < 2 ^ 32 := by omega
    rw [Nat.mod_eq_of_lt this]
    exact ilog2U32_spec this h0
  · rw [if_pos h, ilog2U32_spec hh h]
    simp only [Option.map_some, Option.some.injEq]
    have h1 := Nat.log2_self_le h
    have h2 := Nat.lt_log2_self (n := v / 2 ^ 32)
    symm
    rw [Nat.log2_eq_iff h0]
    constructor
    · rw [Nat.pow_add]
      have := Nat.mul_le_mul_right (2 ^ 32) h1
      omega
    · have := Nat.mul_le_mul_right (2 ^ 32) (Nat.succ_le_of_lt h2)
      have e : 2 ^ ((v / 2 ^ 32).log2 + 32 + 1) = 2 ^ ((v / 2 ^ 32).log2 + 1) * 2 ^ 32 := by
        rw [← Nat.pow_add]
      rw [e]
      omega

/-- The lowest bit set: `v = 2^k * (2 q + 1)`. -/
theorem lowest_bit {v : Nat} (h0 : v ≠ 0) : ∃ k q, v = 2 ^ k * (2 * q + 1) := by
  induction v using Nat.strongRecOn with
  | _ v ih =>
    by_cases h : v % 2 = 1
    · exact ⟨0, v / 2, by rw [Nat.pow_zero, Nat.one_mul]; omega⟩
    · obtain ⟨k, q, e⟩ := ih (v / 2) (by omega) (by omega)
      refine ⟨k + 1, q, ?_⟩
      rw [Nat.pow_succ, Nat.mul_right_comm, ← e]; omega

theorem and_neg {n v k q : Nat} (hv : v < 2 ^ n) (e : v = 2 ^ k * (2 * q + 1)) :
    v &&& ((2 ^ n - v) % 2 ^ n) = 2 ^ k := by
  have hk : 0 < 2 ^ k := Nat.two_pow_pos k
  have hv0 : 0 < v := by rw [e]; exact Nat.mul_pos hk (by omega)
  have hm : (2 ^ n - v) % 2 ^ n = 2 ^ n - ((v - 1) + 1) := by
    rw [Nat.mod_eq_of_lt (by omega)]; omega
  rw [hm]
  apply Nat.eq_of_testBit_eq
  intro i
  rw [Nat.testBit_and, Nat.testBit_two_pow_sub_succ (by omega), Nat.testBit_two_pow]
  have e1 : v = 2 ^ k * (2 * q + 1) + 0 := by omega
  have e2 : v - 1 = 2 ^ k * (2 * q) + (2 ^ k - 1) := by
    rw [e, Nat.mul_add]; omega
  rw [e2, Nat.testBit_two_pow_mul_add _ (by omega)]
  conv => lhs; lhs; rw [e1]
  rw [Nat.testBit_two_pow_mul_add _ hk]
  by_cases hik : i < k
  · simp [hik]; omega
  · by_cases hki : i = k
    · subst hki
      have hin : i < n := by
        rcases Nat.lt_or_ge i n with h | h
        · exact h
        · exfalso
          have h1 := Nat.pow_le_pow_right (n := 2) (by omega) h
          have h2 : 2 ^ i * 1 ≤ v := by rw [e]; exact Nat.mul_le_mul_left _ (by omega)
          omega
      have a1 : (2 * q + 1).testBit 0 = true := by simp
      have a2 : (2 * q).testBit 0 = false := by simp
      simp [hin, a1, a2]
    · have hj : i - k = (i - k - 1) + 1 := by omega
      have a1 : (2 * q + 1).testBit (i - k) = q.testBit (i - k - 1) := by
        rw [hj, Nat.testBit_succ]; congr 1; omega
      have a2 : (2 * q).testBit (i - k) = q.testBit (i - k - 1) := by
        rw [hj, Nat.testBit_succ]; congr 1; omega
      have : decide (k = i) = false := by simp; omega
      rw [this, if_neg hik, if_neg hik, a1, a2]
      cases q.testBit (i - k - 1) <;> simp

theorem deBruijnCtz_spec : ∀ k, k < 32 →
    deBruijnCtz[((2 ^ k * 0x077CB531) % 2 ^ 32) >>> 27]? = some k := by decide

theorem ctzU32_spec {v k q : Nat} (hv : v < 2 ^ 32) (e : v = 2 ^ k * (2 * q + 1)) : ctzU32 v = some k := by
  unfold ctzU32
  simp only
  rw [and_neg hv e]
  apply deBruijnCtz_spec
  rcases Nat.lt_or_ge k 32 with h | h
  · exact h
  · exfalso
    have h1 := Nat.pow_le_pow_right (n := 2) (by omega) h
    have h2 : 2 ^ k * 1 ≤ v := by rw [e]; exact Nat.mul_le_mul_left _ (by omega)
    omega

theorem ctzU64_spec {v k q : Nat} (hv : v < 2 ^ 64) (e : v = 2 ^ k * (2 * q + 1)) : ctzU64 v = some k := by
  unfold ctzU64
  simp only [low32, Nat.shiftRight_eq_div_pow]
  have hh : v / 2 ^ 32 < 2 ^ 32 := by omega
  rw [Nat.mod_eq_of_lt hh]
  by_cases h : v % 2 ^ 32 = 0
  · rw [if_neg (by simpa using h)]
    have hk : 32 ≤ k := by
      rcases Nat.lt_or_ge k 32 with hlt | h'
      · exfalso
        obtain ⟨j, hj⟩ : ∃ j, 32 = k + (j + 1) := ⟨31 - k, by omega⟩
        have hd : 2 ^ (k + (j + 1)) ∣ v := by rw [← hj]; exact Nat.dvd_of_mod_eq_zero h
        rw [e, Nat.pow_add] at hd
        have := Nat.dvd_of_mul_dvd_mul_left (Nat.two_pow_pos k) hd
        rw [Nat.pow_succ] at this
        have := Nat.dvd_trans (Nat.dvd_mul_left 2 _) this
        omega
      · exact h'
    have e' : v / 2 ^ 32 = 2 ^ (k - 32) * (2 * q + 1) := by
      have : v = 2 ^ 32 * (2 ^ (k - 32) * (2 * q + 1)) := by
        rw [← Nat.mul_assoc, ← Nat.pow_add]
        have : 32 + (k - 32) = k := by omega
        rw [this]; exact e
      rw [this, Nat.mul_div_cancel_left _ (by decide)]
    rw [ctzU32_spec hh e']
    simp; omega
  · rw [if_pos h]
    have hk : k < 32 := by
      rcases Nat.lt_or_ge k 32 with hlt | h'
      · exact hlt
      · exfalso
        apply h
        apply Nat.mod_eq_zero_of_dvd
        rw [e]
        exact Nat.dvd_mul_right_of_dvd (Nat.pow_dvd_pow 2 h') _
    obtain ⟨q', e'⟩ : ∃ q', v % 2 ^ 32 = 2 ^ k * (2 * q' + 1) := by
      refine ⟨q % 2 ^ (31 - k), ?_⟩
      have h32 : (2 : Nat) ^ 32 = 2 ^ k * 2 ^ (32 - k) := by rw [← Nat.pow_add]; congr 1; omega
      rw [e, h32, Nat.mul_mod_mul_left]
      congr 1
      have : (2 : Nat) ^ (32 - k) = 2 * 2 ^ (31 - k) := by
        have : 32 - k = (31 - k) + 1 := by omega
        rw [this, Nat.pow_succ]; omega
      rw [this]
      have hN : 0 < 2 ^ (31 - k) := Nat.two_pow_pos _
      generalize 2 ^ (31 - k) = N at *
      have hr := Nat.mod_lt q hN
      have hq := Nat.mod_add_div q N
      have e2 : 2 * q + 1 = (2 * (q % N) + 1) + 2 * N * (q / N) := by
        rw [Nat.mul_assoc, Nat.add_right_comm, ← Nat.mul_add, hq]
      rw [e2, Nat.add_mul_mod_self_left, Nat.mod_eq_of_lt (by omega)]
    exact ctzU32_spec (Nat.mod_lt _ (by decide)) e'

theorem roundupPow2U64_spec {v : Nat} (h1 : 2 ≤ v) (hv : v < 2 ^ 64) :
    roundupPow2U64 v = 2 ^ ((v - 1).log2 + 1) % 2 ^ 64 := by
  unfold roundupPow2U64
  simp only
  have e : (v + (2 ^ 64 - 1)) % 2 ^ 64 = v - 1 := by omega
  rw [e]
  have := smear64 (w := v - 1) (by omega) (by omega)
  simp only at this
  rw [this]
  have : 1 ≤ 2 ^ ((v - 1).log2 + 1) := Nat.two_pow_pos _
  rw [Nat.sub_add_cancel this]

theorem roundupPow2U32_spec {v : Nat} (h1 : 2 ≤ v) (hv : v < 2 ^ 32) :
    roundupPow2U32 v = 2 ^ ((v - 1).log2 + 1) % 2 ^ 32 := by
  unfold roundupPow2U32
  simp only
  have e : (v + (2 ^ 32 - 1)) % 2 ^ 32 = v - 1 := by omega
  rw [e]
  have := smear32 (w := v - 1) (by omega) (by omega)
  simp only at this
  rw [this]
  have : 1 ≤ 2 ^ ((v - 1).log2 + 1) := Nat.two_pow_pos _
  rw [Nat.sub_add_cancel this]

theorem roundupPow2_spec [Arch] {v : Nat} (h1 : 2 ≤ v) (hv : v < 2 ^ sizeBit) :
    roundupPow2 v = 2 ^ ((v - 1).log2 + 1) % 2 ^ sizeBit := by
  cases ‹Arch›
  · exact roundupPow2U32_spec h1 hv
  · exact roundupPow2U64_spec h1 hv

/-- `2^((v-1).log2 + 1)` is the smallest power of two not less than `v`. -/
theorem pow2_ceil {v : Nat} (h1 : 2 ≤ v) : v ≤ 2 ^ ((v - 1).log2 + 1) ∧
    ∀ j, v ≤ 2 ^ j → 2 ^ ((v - 1).log2 + 1) ≤ 2 ^ j := by
  constructor
  · have := Nat.lt_log2_self (n := v - 1); omega
  · intro j hj
    apply Nat.pow_le_pow_right (by omega)
    exact (Nat.log2_lt (by omega)).2 (by omega)

theorem mask80 (i : Nat) : (0x80808080 : Nat).testBit i = true ↔ i = 7 ∨ i = 15 ∨ i = 23 ∨ i = 31 := by
  rcases Nat.lt_or_ge i 32 with h | h
  · revert h; revert i; decide
  · rw [Nat.testBit_lt_two_pow (Nat.lt_of_lt_of_le (by decide : (0x80808080 : Nat) < 2 ^ 32)
      (Nat.pow_le_pow_right (by omega) h))]
    simp; omega

theorem hasZero_bits (x y : Nat) : (x &&& y &&& 0x80808080 != 0) = true ↔
    ∃ i, (i = 7 ∨ i = 15 ∨ i = 23 ∨ i = 31) ∧ x.testBit i = true ∧ y.testBit i = true := by
  rw [bne_iff_ne]
  constructor
  · intro h
    obtain ⟨i, hi⟩ := Nat.exists_testBit_of_ne_zero h
    rw [Nat.testBit_and, Nat.testBit_and, Bool.and_eq_true, Bool.and_eq_true] at hi
    exact ⟨i, (mask80 i).1 hi.2, hi.1.1, hi.1.2⟩
  · rintro ⟨i, h7, hx, hy⟩ h0
    have : (x &&& y &&& 0x80808080).testBit i = true := by
      rw [Nat.testBit_and, Nat.testBit_and, hx, hy, (mask80 i).2 h7]; rfl
    rw [h0] at this
    simp at this

theorem hasZeroU32_spec {v : Nat} (hv : v < 2 ^ 32) :
    hasZeroU32 v = true ↔ ∃ i, i < 4 ∧ v / 256 ^ i % 256 = 0 := by
  unfold hasZeroU32
  rw [hasZero_bits]
  constructor
  · rintro ⟨i, hi, hx, hy⟩
    rw [Nat.testBit_eq_decide_div_mod_eq, decide_eq_true_eq] at hx hy
    apply Classical.byContradiction
    intro hno
    have n0 : v / 256 ^ 0 % 256 ≠ 0 := fun h => hno ⟨0, by omega, h⟩
    have n1 : v / 256 ^ 1 % 256 ≠ 0 := fun h => hno ⟨1, by omega, h⟩
    have n2 : v / 256 ^ 2 % 256 ≠ 0 := fun h => hno ⟨2, by omega, h⟩
    have n3 : v / 256 ^ 3 % 256 ≠ 0 := fun h => hno ⟨3, by omega, h⟩
    norm_num at n0 n1 n2 n3
    rcases hi with rfl | rfl | rfl | rfl <;> norm_num at hx hy <;> omega
  · intro h
    simp only [Nat.testBit_eq_decide_div_mod_eq, decide_eq_true_eq]
    have low : (v / 256 ^ 0 % 256 = 0) ∨ (v / 256 ^ 0 % 256 ≠ 0 ∧ v / 256 ^ 1 % 256 = 0) ∨
        (v / 256 ^ 0 % 256 ≠ 0 ∧ v / 256 ^ 1 % 256 ≠ 0 ∧ v / 256 ^ 2 % 256 = 0) ∨
        (v / 256 ^ 0 % 256 ≠ 0 ∧ v / 256 ^ 1 % 256 ≠ 0 ∧ v / 256 ^ 2 % 256 ≠ 0 ∧ v / 256 ^ 3 % 256 = 0) := by
      obtain ⟨i, hi, e⟩ := h
      have : i = 0 ∨ i = 1 ∨ i = 2 ∨ i = 3 := by omega
      rcases this with rfl | rfl | rfl | rfl <;> omega
    norm_num at low
    rcases low with h | h | h | h
    · exact ⟨7, by simp, by norm_num; omega, by norm_num; omega⟩
    · exact ⟨15, by simp, by norm_num; omega, by norm_num; omega⟩
    · exact ⟨23, by simp, by norm_num; omega, by norm_num; omega⟩
    · exact ⟨31, by simp, by norm_num; omega, by norm_num; omega⟩

end Tommy
