import Verif.Model.Hash
import Mathlib.Data.Fintype.EquivFin
/-! The integer hashes are bijections. -/
set_option linter.unusedSimpArgs false
namespace Tommy

theorem xor_cancel {a b c : Bool} (h : (a ^^ c) = (b ^^ c)) : a = b := by
  cases a <;> cases b <;> cases c <;> simp_all

/-- `x ^ (x >> k)` is injective. -/
theorem xorshr_inj {w : Nat} (k : Nat) (hk : 0 < k) : Function.Injective (fun x : BitVec w => x ^^^ (x >>> k)) := by
  intro x y h
  have hb : ∀ i, (x.getLsbD i ^^ x.getLsbD (k + i)) = (y.getLsbD i ^^ y.getLsbD (k + i)) := by
    intro i
    have := congrArg (fun z => z.getLsbD i) h
    simpa using this
  have key : ∀ n i, w ≤ i + n → x.getLsbD i = y.getLsbD i := by
    intro n
    induction n with
    | zero =>
      intro i hi
      rw [BitVec.getLsbD_of_ge _ _ (by omega), BitVec.getLsbD_of_ge _ _ (by omega)]
    | succ n ih =>
      intro i hi
      have h1 := ih (k + i) (by omega)
      have h2 := hb i
      rw [h1] at h2
      exact xor_cancel h2
  apply BitVec.eq_of_getLsbD_eq
  intro i hi
  exact key w i (by omega)

/-- `x ^ (x << k)` is injective. -/
theorem xorshl_inj {w : Nat} (k : Nat) (hk : 0 < k) : Function.Injective (fun x : BitVec w => x ^^^ (x <<< k)) := by
  intro x y h
  apply BitVec.eq_of_getLsbD_eq
  intro i
  induction i using Nat.strongRecOn with
  | _ i ih =>
    intro hi
    have h2 := congrArg (fun z => z.getLsbD i) h
    simp only [BitVec.getLsbD_xor, BitVec.getLsbD_shiftLeft, hi, decide_true, Bool.true_and] at h2
    by_cases hki : i < k
    · simpa [hki] using h2
    · rw [ih (i - k) (by omega) (by omega)] at h2
      exact xor_cancel h2

theorem shl_eq_mul {w : Nat} (x : BitVec w) (k : Nat) : x <<< k = x * BitVec.ofNat w (2 ^ k) := by
  apply BitVec.eq_of_toNat_eq
  simp [Nat.shiftLeft_eq]

theorem mul_inj {w : Nat} (c d : BitVec w) (h : c * d = 1) : Function.Injective (fun x : BitVec w => x * c) := by
  intro x y hxy
  have := congrArg (fun z => z * d) hxy
  simpa [BitVec.mul_assoc, h] using this

theorem inthashU32_inj : Function.Injective inthashU32 := by
  have m : ∀ k (d : BitVec 32), (1 - BitVec.ofNat 32 (2 ^ k)) * d = 1 →
      Function.Injective (fun x : BitVec 32 => x - (x <<< k)) := by
    intro k d h
    have : (fun x : BitVec 32 => x - (x <<< k)) = fun x => x * (1 - BitVec.ofNat 32 (2 ^ k)) := by
      funext x
      rw [shl_eq_mul, BitVec.sub_eq_add_neg, BitVec.sub_eq_add_neg, BitVec.mul_add, BitVec.mul_neg]
      simp
    rw [this]; exact mul_inj _ d h
  have : inthashU32 = (fun x : BitVec 32 => x ^^^ (x >>> 15)) ∘ (fun x : BitVec 32 => x ^^^ (x <<< 10)) ∘
    (fun x : BitVec 32 => x - (x <<< 3)) ∘
    (fun x : BitVec 32 => x ^^^ (x <<< 4)) ∘ (fun x : BitVec 32 => x - (x <<< 9)) ∘
    (fun x : BitVec 32 => x ^^^ (x >>> 17)) ∘ (fun x : BitVec 32 => x - (x <<< 6)) := rfl
  rw [this]
  exact (xorshr_inj 15 (by omega)).comp <| (xorshl_inj 10 (by omega)).comp <| (m 3 1227133513#32 (by decide)).comp <|
    (xorshl_inj 4 (by omega)).comp <| (m 9 134480385#32 (by decide)).comp <| (xorshr_inj 17 (by omega)).comp <|
    (m 6 1090785345#32 (by decide))

theorem inthashU64_inj : Function.Injective inthashU64 := by
  have m0 : Function.Injective (fun x : BitVec 64 => ~~~x + (x <<< 21)) := by
    have : (fun x : BitVec 64 => ~~~x + (x <<< 21)) = (fun x => x - 1#64) ∘ fun x => x * (BitVec.ofNat 64 (2 ^ 21) - 1#64) := by
      funext x
      simp only [Function.comp]
      rw [shl_eq_mul, BitVec.not_eq_neg_add, BitVec.sub_eq_add_neg (BitVec.ofNat 64 (2 ^ 21)), BitVec.mul_add, BitVec.mul_neg,
        BitVec.mul_one, BitVec.sub_eq_add_neg, BitVec.sub_eq_add_neg]
      ac_rfl
    rw [this]
    refine Function.Injective.comp ?_ (mul_inj _ 9223367638806167551#64 (by decide))
    intro x y h
    simpa using h
  have m2 : ∀ k j (d : BitVec 64), (1 + BitVec.ofNat 64 (2 ^ k) + BitVec.ofNat 64 (2 ^ j)) * d = 1 →
      Function.Injective (fun x : BitVec 64 => x + (x <<< k) + (x <<< j)) := by
    intro k j d h
    have : (fun x : BitVec 64 => x + (x <<< k) + (x <<< j)) =
        fun x => x * (1 + BitVec.ofNat 64 (2 ^ k) + BitVec.ofNat 64 (2 ^ j)) := by
      funext x
      rw [shl_eq_mul, shl_eq_mul, BitVec.mul_add, BitVec.mul_add]
      simp
    rw [this]; exact mul_inj _ d h
  have m1 : Function.Injective (fun x : BitVec 64 => x + (x <<< 31)) := by
    have : (fun x : BitVec 64 => x + (x <<< 31)) = fun x => x * (1 + BitVec.ofNat 64 (2 ^ 31)) := by
      funext x
      rw [shl_eq_mul, BitVec.mul_add]
      simp
    rw [this]; exact mul_inj _ 4611686016279904257#64 (by decide)
  have : inthashU64 = (fun x : BitVec 64 => x + (x <<< 31)) ∘ (fun x : BitVec 64 => x ^^^ (x >>> 28)) ∘
    (fun x : BitVec 64 => x + (x <<< 2) + (x <<< 4)) ∘ (fun x : BitVec 64 => x ^^^ (x >>> 14)) ∘
    (fun x : BitVec 64 => x + (x <<< 3) + (x <<< 8)) ∘ (fun x : BitVec 64 => x ^^^ (x >>> 24)) ∘
    (fun x : BitVec 64 => ~~~x + (x <<< 21)) := rfl
  rw [this]
  exact m1.comp <| (xorshr_inj 28 (by omega)).comp <| (m2 2 4 14933078535860113213#64 (by decide)).comp <|
    (xorshr_inj 14 (by omega)).comp <| (m2 3 8 15244667743933553977#64 (by decide)).comp <|
    (xorshr_inj 24 (by omega)).comp m0

theorem bv_surj {w : Nat} {f : BitVec w → BitVec w} (h : Function.Injective f) : Function.Surjective f := by
  have : Finite (BitVec w) := Finite.of_injective BitVec.toFin (fun x y h => BitVec.eq_of_toFin_eq h)
  exact Finite.injective_iff_surjective.1 h

end Tommy
