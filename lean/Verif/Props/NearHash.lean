import Verif.Proof.IntHash
/-
  C73: the hash for near keys documented at tommy.h:329-336.
-/
set_option autoImplicit false
namespace Tommy

theorem low_split (v : BitVec 32) : (v &&& ~~~0xF#32) + (v &&& 0xF#32) = v := by
  rw [BitVec.add_eq_or_of_and_eq_zero]
  · ext i hi
    simp only [BitVec.getElem_or, BitVec.getElem_and, BitVec.getElem_not]
    cases v[i] <;> cases (0xF#32)[i] <;> rfl
  · ext i hi
    simp only [BitVec.getElem_and, BitVec.getElem_not, BitVec.getElem_zero]
    cases v[i] <;> cases (0xF#32)[i] <;> rfl

theorem low_toNat (v : BitVec 32) : (v &&& 0xF#32).toNat = v.toNat % 16 := by
  rw [BitVec.toNat_and]
  exact Nat.and_two_pow_sub_one_eq_mod v.toNat 4

theorem high_toNat (v : BitVec 32) : (v &&& ~~~0xF#32).toNat = 16 * (v.toNat / 16) := by
  have h := low_split v
  have h1 := congrArg BitVec.toNat h
  rw [BitVec.toNat_add, low_toNat] at h1
  have h2 : (v &&& ~~~0xF#32).toNat ≤ v.toNat := by rw [BitVec.toNat_and]; exact Nat.and_le_left
  have := v.isLt
  omega

theorem high_eq {u v : BitVec 32} : u &&& ~~~0xF#32 = v &&& ~~~0xF#32 ↔ u.toNat / 16 = v.toNat / 16 := by
  rw [← BitVec.toNat_inj, high_toNat, high_toNat]
  omega

theorem nearHash_toNat (v : BitVec 32) :
    (nearHash v).toNat = ((inthashU32 (v &&& ~~~0xF#32)).toNat + v.toNat % 16) % 2 ^ 32 := by
  rw [nearHash, BitVec.toNat_add, low_toNat]

/-- **C73** Keys that differ only by the four lowest bits have hashes as far as the keys. -/
theorem C73_distance (u v : BitVec 32) (h : u &&& ~~~0xF#32 = v &&& ~~~0xF#32) :
    nearHash v - nearHash u = v - u := by
  apply BitVec.eq_of_toNat_eq
  rw [BitVec.toNat_sub, BitVec.toNat_sub, nearHash_toNat, nearHash_toNat, h]
  have h := high_eq.1 h
  have := u.isLt; have := v.isLt
  have := (inthashU32 (v &&& ~~~0xF#32)).isLt
  omega

/-- **C73** In a hashtable of `2 ^ k` buckets the one of the greatest of the two keys is `v - u` positions after the
    other, at most 15, going back to the start after the last bucket. -/
theorem C73_bucket (u v : BitVec 32) (h : u &&& ~~~0xF#32 = v &&& ~~~0xF#32) (huv : u.toNat ≤ v.toNat) (k : Nat)
    (hk : k ≤ 32) : v.toNat - u.toNat ≤ 15 ∧
    (nearHash v).toNat % 2 ^ k = ((nearHash u).toNat % 2 ^ k + (v.toNat - u.toNat)) % 2 ^ k := by
  have h' := high_eq.1 h
  refine ⟨by omega, ?_⟩
  have hd : 2 ^ k ∣ 2 ^ 32 := Nat.pow_dvd_pow 2 hk
  rw [nearHash_toNat, nearHash_toNat, h, Nat.mod_mod_of_dvd _ hd, Nat.mod_mod_of_dvd _ hd, Nat.mod_add_mod]
  congr 1
  omega

/-- **C73** It is not true that the hashes differ only by the four lowest bits: the sum has a carry. -/
theorem C73_false : ¬ ∀ u v : BitVec 32, u &&& ~~~0xF#32 = v &&& ~~~0xF#32 →
    nearHash u &&& ~~~0xF#32 = nearHash v &&& ~~~0xF#32 := by
  intro h
  exact absurd (h 16#32 31#32 (by decide)) (by decide)

/-- **C73** When it is true. -/
theorem C73_partial (u v : BitVec 32) (h : u &&& ~~~0xF#32 = v &&& ~~~0xF#32) :
    nearHash u &&& ~~~0xF#32 = nearHash v &&& ~~~0xF#32 ↔
      ((inthashU32 (u &&& ~~~0xF#32)).toNat % 16 + u.toNat % 16 < 16 ↔
        (inthashU32 (u &&& ~~~0xF#32)).toNat % 16 + v.toNat % 16 < 16) := by
  rw [high_eq, nearHash_toNat, nearHash_toNat, h]
  have := (inthashU32 (v &&& ~~~0xF#32)).isLt
  omega

/-- **C73** Unlike `tommy_inthash_u32`, it has collisions. -/
theorem C73_collision : ∃ u v : BitVec 32, u ≠ v ∧ nearHash u = nearHash v :=
  ⟨919988#32, 1511040#32, by decide, by decide⟩

/-! ### Non vacuity -/

/-- C73: two near keys. -/
example : 0x80000020#32 &&& ~~~0xF#32 = 0x80000027#32 &&& ~~~0xF#32 ∧ nearHash 0x80000027#32 - nearHash 0x80000020#32 = 7 := by
  decide

/-- C73: two near keys with hashes that differ by the fifth bit too. -/
example : nearHash 16#32 &&& ~~~0xF#32 ≠ nearHash 31#32 &&& ~~~0xF#32 ∧ nearHash 31#32 - nearHash 16#32 = 15 := by decide

end Tommy
