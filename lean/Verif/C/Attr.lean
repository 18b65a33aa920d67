import Lean.Meta.Tactic.Simp.RegisterCommand
/-! The simp set for the symbolic execution of the C code. -/

register_simp_attr csem
