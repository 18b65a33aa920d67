import Verif.Model.SortCost
import Verif.Proof.ListSort
namespace Tommy

variable [Arch]
open Lean.Order

omit [Arch] in
/-- Properties of the successful runs are admissible. -/
theorem HM.adm {α : Type} (P : Heap → α → Heap → Prop) :
    admissible (fun m : HM α => ∀ h a h', m h = some (a, h') → P h a h') := by
  refine admissible_pi_apply (β := fun _ : Heap => Option (α × Heap))
    (fun h o => ∀ a h', o = some (a, h') → P h a h') (fun h => ?_)
  exact admissible_pi _ fun a => admissible_pi _ fun h' => Option.admissible_eq_some _ _

omit [Arch] in
theorem adm_fun {α β : Type} [CCPO β] {P : α → β → Prop} (h : ∀ a, admissible (P a)) :
    admissible (fun g : α → β => ∀ a, P a (g a)) := admissible_pi_apply (β := fun _ => β) P h

omit [Arch] in
theorem chainMergeLoopC_erase (cmp : Nat → Nat → Int) (second : Chain) :
    ∀ (first : Chain) (fi si : Ptr) (k : Nat) (h : Heap) (r : Chain × Nat) (h' : Heap),
      chainMergeLoopC cmp first second fi si k h = some (r, h') →
      chainMergeLoop cmp first second fi si h = some (r.1, h') := by
  refine chainMergeLoopC.fixpoint_induct cmp second
    (fun g => ∀ (first : Chain) (fi si : Ptr) (k : Nat) (h : Heap) (r : Chain × Nat) (h' : Heap),
      g first fi si k h = some (r, h') → chainMergeLoop cmp first second fi si h = some (r.1, h')) ?_ ?_
  · exact adm_fun fun first => adm_fun fun fi => adm_fun fun si => adm_fun fun k =>
      HM.adm fun h r h' => chainMergeLoop cmp first second fi si h = some (Prod.fst r, h')
  · intro g ih first fi si k h r h' e
    rw [chainMergeLoop]
    simp only [run_bind, run_ite] at e ⊢
    obtain ⟨⟨fd, h1⟩, e1, e⟩ := Option.bind_eq_some_iff.1 e
    obtain ⟨⟨sd, h2⟩, e2, e⟩ := Option.bind_eq_some_iff.1 e
    simp only [e1, e2, Option.bind_some] at e ⊢
    split at e
    · rename_i hc
      rw [if_pos hc]
      obtain ⟨⟨nx, h3⟩, e3, e⟩ := Option.bind_eq_some_iff.1 e
      simp only [e3, Option.bind_some] at e ⊢
      split at e
      · rename_i hh
        rw [if_pos hh]
        obtain ⟨⟨_, h4⟩, e4, e⟩ := Option.bind_eq_some_iff.1 e
        simp only [e4, Option.bind_some, run_pure] at e ⊢
        split at e
        · rename_i ht
          rw [if_pos ht]; simp at e ⊢; obtain ⟨rfl, rfl⟩ := e; simp
        · rename_i ht
          rw [if_neg ht]; exact ih _ _ _ _ _ _ _ e
      · rename_i hh
        rw [if_neg hh]
        obtain ⟨⟨_, h4⟩, e4, e⟩ := Option.bind_eq_some_iff.1 e
        obtain ⟨⟨_, h5⟩, e5, e⟩ := Option.bind_eq_some_iff.1 e
        simp only [e4, e5, Option.bind_some, run_pure] at e ⊢
        split at e
        · rename_i ht
          rw [if_pos ht]; simp at e ⊢; obtain ⟨rfl, rfl⟩ := e; simp
        · rename_i ht
          rw [if_neg ht]; exact ih _ _ _ _ _ _ _ e
    · rename_i hc
      rw [if_neg hc]
      split at e
      · rename_i ht
        rw [if_pos ht]
        obtain ⟨⟨_, h4⟩, e4, e⟩ := Option.bind_eq_some_iff.1 e
        simp only [e4, Option.bind_some, run_pure] at e ⊢
        simp at e ⊢; obtain ⟨rfl, rfl⟩ := e; simp
      · rename_i ht
        rw [if_neg ht]
        obtain ⟨⟨_, h4⟩, e4, e⟩ := Option.bind_eq_some_iff.1 e
        simp only [e4, Option.bind_some] at e ⊢
        exact ih _ _ _ _ _ _ _ e

omit [Arch] in
theorem chainMergeDegeneratedC_erase (cmp : Nat → Nat → Int) (first second : Chain) (k : Nat) (h : Heap)
    (r : Chain × Nat) (h' : Heap) (e : chainMergeDegeneratedC cmp first second k h = some (r, h')) :
    chainMergeDegenerated cmp first second h = some (r.1, h') := by
  unfold chainMergeDegeneratedC at e
  unfold chainMergeDegenerated
  simp only [run_bind, run_ite] at e ⊢
  obtain ⟨⟨fd, h1⟩, e1, e⟩ := Option.bind_eq_some_iff.1 e
  obtain ⟨⟨sd, h2⟩, e2, e⟩ := Option.bind_eq_some_iff.1 e
  simp only [e1, e2, Option.bind_some] at e ⊢
  split at e
  · rename_i hc
    rw [if_pos hc]
    obtain ⟨⟨_, h4⟩, e4, e⟩ := Option.bind_eq_some_iff.1 e
    simp only [e4, Option.bind_some, run_pure] at e ⊢
    simp at e ⊢; obtain ⟨rfl, rfl⟩ := e; simp
  · rename_i hc
    rw [if_neg hc]
    obtain ⟨⟨fd, h1⟩, e1, e⟩ := Option.bind_eq_some_iff.1 e
    obtain ⟨⟨sd, h2⟩, e2, e⟩ := Option.bind_eq_some_iff.1 e
    simp only [e1, e2, Option.bind_some] at e ⊢
    split at e
    · rename_i hc
      rw [if_pos hc]
      obtain ⟨⟨_, h4⟩, e4, e⟩ := Option.bind_eq_some_iff.1 e
      simp only [e4, Option.bind_some, run_pure] at e ⊢
      simp at e ⊢; obtain ⟨rfl, rfl⟩ := e; simp
    · rename_i hc
      rw [if_neg hc]
      exact chainMergeLoopC_erase _ _ _ _ _ _ _ _ _ e

theorem chainCarryLoopC_erase (cmp : Nat → Nat → Int) :
    ∀ (bit : Bits) (mask i : Nat) (last : Chain) (k : Nat) (h : Heap) (r : (Bits × Nat × Chain) × Nat) (h' : Heap),
      chainCarryLoopC cmp bit mask i last k h = some (r, h') →
      chainCarryLoop cmp bit mask i last h = some (r.1, h') := by
  refine chainCarryLoopC.fixpoint_induct cmp
    (fun g => ∀ (bit : Bits) (mask i : Nat) (last : Chain) (k : Nat) (h : Heap) (r : (Bits × Nat × Chain) × Nat)
      (h' : Heap), g bit mask i last k h = some (r, h') → chainCarryLoop cmp bit mask i last h = some (r.1, h')) ?_ ?_
  · exact adm_fun fun bit => adm_fun fun mask => adm_fun fun i => adm_fun fun last => adm_fun fun k =>
      HM.adm fun h r h' => chainCarryLoop cmp bit mask i last h = some (Prod.fst r, h')
  · intro g ih bit mask i last k h r h' e
    rw [chainCarryLoop]
    simp only [run_bind, run_ite] at e ⊢
    split at e
    · rename_i hc
      rw [if_pos hc]
      obtain ⟨⟨_, h1⟩, e1, e⟩ := Option.bind_eq_some_iff.1 e
      obtain ⟨⟨_, h2⟩, e2, e⟩ := Option.bind_eq_some_iff.1 e
      obtain ⟨⟨_, h3⟩, e3, e⟩ := Option.bind_eq_some_iff.1 e
      have e2 := chainMergeDegeneratedC_erase _ _ _ _ _ _ _ e2
      simp only [e1, e2, e3, Option.bind_some] at e ⊢
      exact ih _ _ _ _ _ _ _ _ e
    · rename_i hc
      rw [if_neg hc]
      simp at e ⊢; obtain ⟨rfl, rfl⟩ := e; simp

theorem chainSortLoopC_erase (cmp : Nat → Nat → Int) (tail : Ptr) :
    ∀ (bit : Bits) (counter : Nat) (node : Ptr) (k : Nat) (h : Heap) (r : (Bits × Nat) × Nat) (h' : Heap),
      chainSortLoopC cmp tail bit counter node k h = some (r, h') →
      chainSortLoop cmp tail bit counter node h = some (r.1, h') := by
  refine chainSortLoopC.fixpoint_induct cmp tail
    (fun g => ∀ (bit : Bits) (counter : Nat) (node : Ptr) (k : Nat) (h : Heap) (r : (Bits × Nat) × Nat) (h' : Heap),
      g bit counter node k h = some (r, h') → chainSortLoop cmp tail bit counter node h = some (r.1, h')) ?_ ?_
  · exact adm_fun fun bit => adm_fun fun counter => adm_fun fun node => adm_fun fun k =>
      HM.adm fun h r h' => chainSortLoop cmp tail bit counter node h = some (Prod.fst r, h')
  · intro g ih bit counter node k h r h' e
    rw [chainSortLoop]
    simp only [run_bind, run_ite] at e ⊢
    obtain ⟨⟨_, h1⟩, e1, e⟩ := Option.bind_eq_some_iff.1 e
    obtain ⟨⟨_, h2⟩, e2, e⟩ := Option.bind_eq_some_iff.1 e
    obtain ⟨⟨_, h3⟩, e3, e⟩ := Option.bind_eq_some_iff.1 e
    obtain ⟨⟨_, h4⟩, e4, e⟩ := Option.bind_eq_some_iff.1 e
    have e3 := chainCarryLoopC_erase _ _ _ _ _ _ _ _ _ e3
    simp only [e1, e2, e3, e4, Option.bind_some] at e ⊢
    split at e
    · rename_i hc
      rw [if_pos hc]
      simp at e ⊢; obtain ⟨rfl, rfl⟩ := e; simp
    · rename_i hc
      rw [if_neg hc]
      exact ih _ _ _ _ _ _ _ e

theorem chainFinalLoopC_erase (cmp : Nat → Nat → Int) :
    ∀ (bit : Bits) (mask i : Nat) (k : Nat) (h : Heap) (r : Chain × Nat) (h' : Heap),
      chainFinalLoopC cmp bit mask i k h = some (r, h') → chainFinalLoop cmp bit mask i h = some (r.1, h') := by
  refine chainFinalLoopC.fixpoint_induct cmp
    (fun g => ∀ (bit : Bits) (mask i : Nat) (k : Nat) (h : Heap) (r : Chain × Nat) (h' : Heap),
      g bit mask i k h = some (r, h') → chainFinalLoop cmp bit mask i h = some (r.1, h')) ?_ ?_
  · exact adm_fun fun bit => adm_fun fun mask => adm_fun fun i => adm_fun fun k =>
      HM.adm fun h r h' => chainFinalLoop cmp bit mask i h = some (Prod.fst r, h')
  · intro g ih bit mask i k h r h' e
    rw [chainFinalLoop]
    simp only [run_bind, run_ite] at e ⊢
    split at e
    · rename_i hc
      rw [if_pos hc]
      obtain ⟨⟨_, h1⟩, e1, e⟩ := Option.bind_eq_some_iff.1 e
      simp only [e1, Option.bind_some] at e ⊢
      split at e
      · rename_i hm
        rw [if_pos hm]
        obtain ⟨⟨_, h2⟩, e2, e⟩ := Option.bind_eq_some_iff.1 e
        obtain ⟨⟨_, h3⟩, e3, e⟩ := Option.bind_eq_some_iff.1 e
        obtain ⟨⟨_, h4⟩, e4, e⟩ := Option.bind_eq_some_iff.1 e
        have e3 := chainMergeDegeneratedC_erase _ _ _ _ _ _ _ e3
        simp only [e2, e3, e4, Option.bind_some] at e ⊢
        exact ih _ _ _ _ _ _ _ e
      · rename_i hm
        rw [if_neg hm]
        obtain ⟨⟨_, h2⟩, e2, e⟩ := Option.bind_eq_some_iff.1 e
        simp only [e2, Option.bind_some] at e ⊢
        exact ih _ _ _ _ _ _ _ e
    · rename_i hc
      rw [if_neg hc]
      obtain ⟨⟨_, h1⟩, e1, e⟩ := Option.bind_eq_some_iff.1 e
      simp at e; obtain ⟨rfl, rfl⟩ := e; exact e1

/-- Without the counter `listSortC` is `listSort`. -/
theorem listSortC_erase (cmp : Nat → Nat → Int) (list : Ptr) (h : Heap) (r : Ptr × Nat) (h' : Heap)
    (e : listSortC list cmp h = some (r, h')) : listSort list cmp h = some (r.1, h') := by
  unfold listSortC at e
  unfold listSort
  simp only [run_bind, run_ite] at e ⊢
  split at e
  · rename_i hc
    rw [if_pos hc]
    simp at e ⊢; obtain ⟨rfl, rfl⟩ := e; simp
  · rename_i hc
    rw [if_neg hc]
    unfold chainMergesortC at e
    unfold chainMergesort
    simp only [run_bind] at e ⊢
    obtain ⟨⟨_, h1⟩, e1, e⟩ := Option.bind_eq_some_iff.1 e
    obtain ⟨⟨_, h2⟩, e2, e⟩ := Option.bind_eq_some_iff.1 e
    obtain ⟨⟨_, h3⟩, e3, e2⟩ := Option.bind_eq_some_iff.1 e2
    obtain ⟨⟨_, h4⟩, e4, e⟩ := Option.bind_eq_some_iff.1 e
    have e3 := chainSortLoopC_erase _ _ _ _ _ _ _ _ _ e3
    have e2 := chainFinalLoopC_erase _ _ _ _ _ _ _ _ e2
    simp only [e1, e2, e3, e4, Option.bind_some] at e ⊢
    simp at e ⊢; obtain ⟨rfl, rfl⟩ := e; simp
end Tommy
