import Verif.Model.HashFlat
/-! What C77 says about the memory. -/
set_option autoImplicit false
namespace Tommy.C
variable [Arch]

/-- The bytes `l` are in memory from the address `p`, and can be read. -/
structure KeyAt (w : BMem) (p : Nat) (l : List (BitVec 8)) : Prop where
  fits : p + l.length ≤ 2 ^ sizeBit
  live : l ≠ [] → ∃ b n, w.mem.live b = some n ∧ b ≤ p ∧ p + l.length ≤ b + n
  val : ∀ i (h : i < l.length), w.mem.byte (p + i) = l[i].toNat

end Tommy.C
