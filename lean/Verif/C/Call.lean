import Verif.C.Sem
/-
  The calls of the functions of the program, also recursive.
-/
set_option autoImplicit false
set_option linter.unusedSectionVars false
namespace Tommy.C

open Lean.Order

variable [Arch]

omit [Arch] in
theorem admissible_le {α : Type} [CCPO α] (c : α) : admissible (fun x : α => x ⊑ c) :=
  fun _ hc h => csup_le hc h

omit [Arch] in
/-- `loop` is monotone in its body. -/
@[partial_fixpoint_monotone]
theorem monotone_loop {γ : Type} [PartialOrder γ] (f : γ → Env → BM (Ctl × Env)) (hf : monotone f) (e : Env) :
    monotone (fun c => loop (f c) e) := by
  intro a b hab
  have : ∀ e, loop (f a) e ⊑ loop (f b) e := by
    apply loop.fixpoint_induct (f a) (fun g => ∀ e, g e ⊑ loop (f b) e)
    · exact admissible_pi_apply _ fun e => admissible_le _
    · intro g hg e
      rw [loop.eq_1 (f b)]
      refine PartialOrder.rel_trans (MonoBind.bind_mono_left (hf _ _ hab e)) (MonoBind.bind_mono_right fun r => ?_)
      obtain ⟨c, e⟩ := r
      cases c
      · exact hg e
      · exact PartialOrder.rel_refl
      · exact PartialOrder.rel_refl
  exact this e

variable (S : Structs) (ext : Ext)
variable {γ : Type} [PartialOrder γ] {c : γ → String → List Val → BM Val} (hc : monotone c)
include hc

theorem monotone_call (f : String) (vs : List Val) : monotone (fun x => c x f vs) :=
  monotone_apply _ _ (monotone_apply _ _ hc)

mutual

theorem monotone_ev (a : Expr) (e : Env) : monotone (fun x => ev S ext (c x) a e) := by
  cases a <;> unfold ev
  all_goals repeat' first
    | exact monotone_const _
    | exact monotone_ev _ _
    | exact monotone_evArgs _ _
    | exact monotone_call hc _ _
    | monotonicity

theorem monotone_evArgs (as : Args) (e : Env) : monotone (fun x => evArgs S ext (c x) as e) := by
  cases as <;> unfold evArgs
  all_goals repeat' first
    | exact monotone_const _
    | exact monotone_ev _ _
    | exact monotone_evArgs _ _
    | monotonicity

end

theorem monotone_eval (a : Expr) (e : Env) : monotone (fun x => eval S ext (c x) a e) := by
  unfold eval
  repeat' first
    | exact monotone_const _
    | exact monotone_ev S ext hc _ _
    | monotonicity

theorem monotone_exec (a : Stmt) (e : Env) : monotone (fun x => exec S ext (c x) a e) := by
  induction a generalizing e <;> unfold exec
  all_goals repeat' first
    | exact monotone_const _
    | exact monotone_ev S ext hc _ _
    | exact monotone_eval S ext hc _ _
    | apply_assumption
    | monotonicity

@[partial_fixpoint_monotone]
theorem monotone_execFun (d : Fun) (vs : List Val) : monotone (fun x => execFun S ext (c x) d vs) := by
  unfold execFun
  repeat' first
    | exact monotone_const _
    | exact monotone_exec S ext hc _ _
    | monotonicity

end Tommy.C
