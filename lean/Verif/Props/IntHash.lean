import Verif.Proof.IntHashSpec
/-
  C69: the integer hashes.
-/
set_option autoImplicit false
namespace Tommy
open IntHashSpec

/-- **C69** The two functions are those of Robert Jenkins and of Thomas Wang. -/
theorem C69_values : (∀ k : BitVec 32, (inthashU32 k).toNat = jenkins k.toNat) ∧ (∀ k : BitVec 64, (inthashU64 k).toNat = wang k.toNat) :=
  ⟨inthashU32_eq, inthashU64_eq⟩

/-- **C69** The key is recovered from the hash, and the hash from the key. -/
theorem C69_inverse_u32 (k : BitVec 32) : unjenkins (inthashU32 k).toNat = k.toNat ∧
    (inthashU32 (BitVec.ofNat 32 (unjenkins k.toNat))).toNat = k.toNat := by
  have h1 : ∀ k : BitVec 32, unjenkins (inthashU32 k).toNat = k.toNat := fun k => by
    rw [inthashU32_eq, unjenkins_jenkins k.isLt]
  refine ⟨h1 k, ?_⟩
  obtain ⟨j, rfl⟩ := bv_surj inthashU32_inj k
  rw [h1, BitVec.ofNat_toNat, BitVec.setWidth_eq]

/-- **C69** The same with 64 bits. -/
theorem C69_inverse_u64 (k : BitVec 64) : unwang (inthashU64 k).toNat = k.toNat ∧
    (inthashU64 (BitVec.ofNat 64 (unwang k.toNat))).toNat = k.toNat := by
  have h1 : ∀ k : BitVec 64, unwang (inthashU64 k).toNat = k.toNat := fun k => by
    rw [inthashU64_eq, unwang_wang k.isLt]
  refine ⟨h1 k, ?_⟩
  obtain ⟨j, rfl⟩ := bv_surj inthashU64_inj k
  rw [h1, BitVec.ofNat_toNat, BitVec.setWidth_eq]

/-! ### Non vacuity -/

/-- C69: some values. -/
example : jenkins 1 = 3266786691 ∧ jenkins 12345 = 43351985 ∧ unjenkins 43351985 = 12345 ∧
    wang 1 = 6614235796240398542 ∧ wang 12345 = 7658450573117590115 ∧ unwang 7658450573117590115 = 12345 := by decide +kernel

end Tommy
