import Verif.Model.Arch
/-! The two builds. -/
set_option autoImplicit false
namespace Tommy
variable [Arch]

/-- A table of at most 2^bktBit buckets is at most half of the memory. -/
def bktBit : Nat := if sizeBit = 32 then 29 else 60

theorem arch_both : (sizeBit = 32 ∧ ptrSize = 4 ∧ nodeSize = 16 ∧ bktBit = 29) ∨
    (sizeBit = 64 ∧ ptrSize = 8 ∧ nodeSize = 32 ∧ bktBit = 60) := by
  cases ‹Arch›
  · exact .inl ⟨rfl, rfl, rfl, rfl⟩
  · exact .inr ⟨rfl, rfl, rfl, rfl⟩

/-- `omega` for each of the two builds. -/
macro "arch" : tactic => `(tactic| (rcases arch_both with ⟨h1, h2, h3, h4⟩ | ⟨h1, h2, h3, h4⟩ <;> simp only [h1, h2, h3, h4] at * <;> omega))

/-- `decide` for each of the two builds. -/
macro "archd" : tactic => `(tactic| (cases ‹Arch› <;> decide))

end Tommy
