/-
  What "correct for every history of calls" means, used for every container.

  A `Sys` puts side by side a program (concrete states `S`, one `step` for each call) and its
  specification (abstract states `A`).  The specification tells which calls a client may do
  (`legal`), which results are allowed (`allowed`) and how the abstract state evolves given
  the result (`next`).
-/
set_option autoImplicit false
namespace Tommy

structure Sys (S A Op Out : Type) where
  /-- possible initial states -/
  init : S → A → Prop
  /-- the program executes a call -/
  step : Op → StateT S Option Out
  /-- preconditions on the caller -/
  legal : A → Op → Prop
  /-- the result `out` of the call is right -/
  allowed : A → Op → Out → Prop
  /-- the abstract state after the call -/
  next : A → Op → Out → A

namespace Sys
variable {S A Op Out : Type} (sys : Sys S A Op Out)

/-- The states reachable by any finite history of legal calls. -/
inductive Reach : S → A → Prop
  | init {s a} : sys.init s a → Reach s a
  | step {s a op out s'} : Reach s a → sys.legal a op → sys.step op s = some (out, s') →
      Reach s' (sys.next a op out)

/-- The same, with the total cost of the calls of the history. -/
inductive ReachCost (cost : Op → Nat) : S → A → Nat → Prop
  | init {s a} : sys.init s a → ReachCost cost s a 0
  | step {s a op out s' n} : ReachCost cost s a n → sys.legal a op → sys.step op s = some (out, s') →
      ReachCost cost s' (sys.next a op out) (n + cost op)

/-- `s'`, `a'` is reached from `s`, `a` by any finite history of legal calls. -/
inductive From (s : S) (a : A) : S → A → Prop
  | refl : From s a s a
  | step {s1 a1 op out s2} : From s a s1 a1 → sys.legal a1 op → sys.step op s1 = some (out, s2) →
      From s a s2 (sys.next a1 op out)

/-- Every legal call in every reachable state returns (no undefined behaviour, no failed
    assert, no infinite loop), and its result is right. -/
def Correct : Prop :=
  ∀ s a, sys.Reach s a → ∀ op, sys.legal a op →
    ∃ out s', sys.step op s = some (out, s') ∧ sys.allowed a op out

/-- The same thing said on a sequence of calls: as long as the calls are legal each one
    returns with a right result. -/
def Runs (s : S) (a : A) : List Op → Prop
  | [] => True
  | op :: ops => sys.legal a op →
      ∃ out s', sys.step op s = some (out, s') ∧ sys.allowed a op out ∧
        Runs s' (sys.next a op out) ops

theorem Correct.runs {sys : Sys S A Op Out} (hc : sys.Correct) :
    ∀ ops s a, sys.Reach s a → sys.Runs s a ops := by
  intro ops
  induction ops with
  | nil => intros; trivial
  | cons op ops ih =>
    intro s a hr hl
    obtain ⟨out, s', e, al⟩ := hc s a hr op hl
    exact ⟨out, s', e, al, ih _ _ (.step hr hl e)⟩

/-- A legal call extends the history (used to build concrete examples). -/
theorem Correct.extend {sys : Sys S A Op Out} (hc : sys.Correct) {s : S} {a : A} (hr : sys.Reach s a)
    (op : Op) (hl : sys.legal a op) :
    ∃ out s', sys.Reach s' (sys.next a op out) ∧ sys.allowed a op out := by
  obtain ⟨out, s', e, al⟩ := hc s a hr op hl
  exact ⟨out, s', .step hr hl e, al⟩

theorem ReachCost.reach {sys : Sys S A Op Out} {cost : Op → Nat} {s : S} {a : A} {n : Nat}
    (h : sys.ReachCost cost s a n) : sys.Reach s a := by
  induction h with
  | init h => exact .init h
  | step _ hl e ih => exact .step ih hl e

theorem From.reach {sys : Sys S A Op Out} {s s' : S} {a a' : A} (h : sys.From s a s' a') (hr : sys.Reach s a) :
    sys.Reach s' a' := by
  induction h with
  | refl => exact hr
  | step _ hl e ih => exact .step ih hl e

/-- Induction principle: an invariant relating the program to the specification. -/
theorem reach_inv {sys : Sys S A Op Out} {Inv : S → A → Prop}
    (hi : ∀ s a, sys.init s a → Inv s a)
    (hs : ∀ s a op, Inv s a → sys.legal a op →
      ∃ out s', sys.step op s = some (out, s') ∧ sys.allowed a op out ∧ Inv s' (sys.next a op out)) :
    ∀ s a, sys.Reach s a → Inv s a := by
  intro s a hr
  induction hr with
  | init h => exact hi _ _ h
  | step hr hl e ih =>
    obtain ⟨out, s', e', _, inv⟩ := hs _ _ _ ih hl
    rw [e] at e'
    simp only [Option.some.injEq, Prod.mk.injEq] at e'
    obtain ⟨rfl, rfl⟩ := e'
    exact inv

theorem correct_of_inv {sys : Sys S A Op Out} {Inv : S → A → Prop}
    (hi : ∀ s a, sys.init s a → Inv s a)
    (hs : ∀ s a op, Inv s a → sys.legal a op →
      ∃ out s', sys.step op s = some (out, s') ∧ sys.allowed a op out ∧ Inv s' (sys.next a op out)) :
    sys.Correct := by
  intro s a hr op hl
  obtain ⟨out, s', e, al, _⟩ := hs s a op (reach_inv hi hs s a hr) hl
  exact ⟨out, s', e, al⟩

end Sys
end Tommy
