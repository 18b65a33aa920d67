import Verif.Spec.CFlat
import Verif.Proof.CTbl
import Verif.Proof.CDyn
import Verif.Proof.CLin
import Verif.Proof.HashFlatFree
/-! The functions of the library, as they are written in C, return what C75 says. -/
set_option autoImplicit false
set_option linter.unusedSectionVars false
set_option linter.unusedSimpArgs false
namespace Tommy
namespace CFlatSpec
open HashFlatSpec
open C (Val Ext CTy Impl Keeps BOk)

variable [Arch]
variable {α β γ δ : Type}

/-- When `x` succeeds, also `y` does, with the same effect. -/
def Ref (P : α → β → Prop) (x : BM α) (y : BM β) : Prop := ∀ w, BOk w → ∀ a w', x w = some (a, w') → ∃ b, y w = some (b, w') ∧ P a b

theorem Ref.of_impl {P : α → β → Prop} {x : BM α} {y : BM β} (h : Impl P x y) : Ref P x y := fun w hw a w' e => (h w hw a w' e).2

theorem Ref.mono {P Q : α → β → Prop} {x : BM α} {y : BM β} (h : Ref P x y) (hpq : ∀ a b, P a b → Q a b) : Ref Q x y := fun w hw a w' e =>
  have ⟨b, h1, h2⟩ := h w hw a w' e
  ⟨b, h1, hpq _ _ h2⟩

theorem Ref.of_eq {P : α → β → Prop} {x : BM α} {y : BM β} {g : α → β} (h : y = (do let a ← x; return g a)) (hp : ∀ a, P a (g a)) : Ref P x y := by
  intro w _ a w' e
  refine ⟨g a, ?_, hp a⟩
  rw [h]
  show (x w).bind _ = _
  rw [e]; rfl

theorem Ref.bind {P : α → β → Prop} {Q : γ → δ → Prop} {x : BM α} {y : BM β} {f : α → BM γ} {g : β → BM δ} (h : Impl P x y)
    (h' : ∀ a b, P a b → Ref Q (f a) (g b)) : Ref Q (x >>= f) (y >>= g) := by
  intro w hw a w' e
  obtain ⟨c, w1, e1, e2⟩ := C.bind_inv e
  obtain ⟨hw1, d, e3, hq⟩ := h w hw c w1 e1
  obtain ⟨b, e4, hp⟩ := h' c d hq w1 hw1 a w' e2
  refine ⟨b, ?_, hp⟩
  show (y w).bind _ = _
  rw [e3]; exact e4

/-- The rest is the same. -/
theorem Ref.then {P : α → β → Prop} {x : BM α} {y : BM β} {f : α → BM γ} {g : β → BM γ} (h : Ref P x y) (h' : ∀ a b, P a b → f a = g b) :
    Ref Eq (x >>= f) (y >>= g) := by
  intro w hw a w' e
  obtain ⟨c, w1, e1, e2⟩ := C.bind_inv e
  obtain ⟨d, e3, hq⟩ := h w hw c w1 e1
  refine ⟨a, ?_, rfl⟩
  show (y w).bind _ = _
  rw [e3]
  show g d w1 = _
  rw [← h' c d hq]; exact e2

theorem isCmp {f arg : Nat} {cmp : Nat → Int} (h : IsInt cmp) : C.IsCmp (cmpExt f arg cmp) f arg cmp := by
  intro d
  refine ⟨_, if_pos ⟨rfl, rfl, rfl, rfl⟩, ?_⟩
  have := h d
  show (cmp d % (2 ^ 32 : Nat)).toNat = 0 ↔ _
  omega

theorem isFree (f : Nat) : C.IsFunc (freeExt f) f bfree := fun _ => if_pos ⟨rfl, rfl⟩

theorem ref_init (ty : Ty) (t n : Nat) (hn : ty = .hashtable → n < 2 ^ sizeBit) : Ref (fun _ _ => True) (binit ty t n) (cinit ty t n) := by
  cases ty
  · exact .of_impl ((C.impl_hashtable_init _ _ _ _ (hn rfl)).mono fun _ _ _ => trivial)
  · exact .of_impl ((C.impl_hashdyn_init _ _ _).mono fun _ _ _ => trivial)
  · exact .of_impl ((C.impl_hashlin_init _ _ _).mono fun _ _ _ => trivial)

theorem ref_done (ty : Ty) (t : Nat) : Ref (fun _ _ => True) (bdone ty t) (cdone ty t) := by
  cases ty
  · exact .of_eq (C.run_hashtable_done _ _ _) fun _ => trivial
  · exact .of_eq (C.run_hashdyn_done _ _ _) fun _ => trivial
  · exact .of_impl ((C.impl_hashlin_done _ _ _).mono fun _ _ _ => trivial)

theorem ref_usage (ty : Ty) (t : Nat) : Ref (fun a b => a = b.v) (busage ty t) (cusage ty t) := by
  cases ty
  · exact .of_eq (C.run_hashtable_usage _ _ _) fun _ => rfl
  · exact .of_eq (C.run_hashdyn_usage _ _ _) fun _ => rfl
  · exact .of_eq (C.run_hashlin_usage _ _ _) fun _ => rfl

theorem ref_freeAll (f : Nat) (ty : Ty) (t : Nat) : Ref (fun _ _ => True) (bfreeAll ty t) (cfreeAll f ty t) := by
  unfold bfreeAll cfreeAll
  have : Impl (fun _ _ => True) (bforeach ty t bfree) (fn (freeExt f) ty "tommy_hashtable_foreach" "tommy_hashdyn_foreach" "tommy_hashlin_foreach" [pTab ty t, pFunc f]) := by
    cases ty
    · exact (C.impl_hashtable_foreach _ _ (isFree f) C.keeps_free).mono fun _ _ _ => trivial
    · exact (C.impl_hashdyn_foreach _ _ (isFree f) C.keeps_free).mono fun _ _ _ => trivial
    · exact (C.impl_hashlin_foreach _ _ (isFree f) C.keeps_free).mono fun _ _ _ => trivial
  exact .bind this fun _ _ _ => ref_done ty t

theorem ref_call (f arg : Nat) (ty : Ty) (t : Nat) (op : HashSpec.Op) (h : match op with | .remove cmp _ | .search cmp _ => IsInt cmp | _ => True) :
    Ref Eq (bcall ty t op) (ccall f arg ty t op) := by
  cases op with
  | insert p d h =>
    refine Ref.then (P := fun _ _ => True) ?_ fun _ _ _ => rfl
    cases ty
    · exact .of_eq (C.run_hashtable_insert _ _ _ _ _ _ _ _) fun _ => trivial
    · exact .of_impl ((C.impl_hashdyn_insert _ _ _ _ _ _ _ _).mono fun _ _ _ => trivial)
    · exact .of_impl ((C.impl_hashlin_insert _ _ _ _ _ _ _ _).mono fun _ _ _ => trivial)
  | remove cmp h =>
    refine Ref.then (P := fun a b => b = pVoid a) ?_ (by rintro a _ rfl; rfl)
    cases ty
    · exact .of_impl (C.impl_hashtable_remove _ _ (isCmp (by assumption)))
    · exact .of_impl (C.impl_hashdyn_remove _ _ (isCmp (by assumption)))
    · exact .of_impl (C.impl_hashlin_remove _ _ (isCmp (by assumption)))
  | search cmp h =>
    refine Ref.then (P := fun a b => b = pVoid a) ?_ (by rintro a _ rfl; rfl)
    cases ty
    · exact .of_impl (C.impl_hashtable_search _ _ (isCmp (by assumption)))
    · exact .of_impl (C.impl_hashdyn_search _ _ (isCmp (by assumption)))
    · exact .of_impl (C.impl_hashlin_search _ _ (isCmp (by assumption)))
  | removeExisting p =>
    refine Ref.then (P := fun a b => b = pVoid a) ?_ (by rintro a _ rfl; rfl)
    cases ty
    · exact .of_impl (C.impl_hashtable_remove_existing _ _ _ _ _)
    · exact .of_impl (C.impl_hashdyn_remove_existing _ _ _ _ _)
    · exact .of_impl (C.impl_hashlin_remove_existing _ _ _ _ _)
  | bucket h =>
    refine Ref.then (P := fun a b => b = pNode a) ?_ (by rintro a _ rfl; rfl)
    cases ty
    · exact .of_eq (C.run_hashtable_bucket _ _ _ _) fun _ => rfl
    · exact .of_eq (C.run_hashdyn_bucket _ _ _ _) fun _ => rfl
    · exact .of_impl (C.impl_hashlin_bucket _ _ _ _)
  | count =>
    refine Ref.then (P := fun a b => b = size a) ?_ (by rintro a _ rfl; rfl)
    cases ty
    · exact .of_eq (C.run_hashtable_count _ _ _) fun _ => rfl
    · exact .of_eq (C.run_hashdyn_count _ _ _) fun _ => rfl
    · exact .of_eq (C.run_hashlin_count _ _ _) fun _ => rfl
  | _ => intro w _ a w' e; cases e

theorem run_ref {P : α → β → Prop} {x : BM α} {y : BM β} {f : α → HashSpec.Out} {g : β → HashSpec.Out} (h : Ref P x y) (hfg : ∀ a b, P a b → f a = g b)
    {s : AMem} (hs : ∀ x, s.byte x < 256) {m : Nat} {c : Nat → Nat} (hc : ∀ x, c x < 256) {r : Out × AMem} (e : HashFlatSpec.run x m c f s = some r) :
    HashFlatSpec.run y m c g s = some r := by
  unfold HashFlatSpec.run at e ⊢
  cases hx : x ⟨s, [(m, c)], []⟩ with
  | none => rw [hx] at e; cases e
  | some p =>
    obtain ⟨a, w'⟩ := p
    rw [hx] at e
    obtain ⟨b, e1, hp⟩ := h ⟨s, [(m, c)], []⟩ ⟨hs, fun q hq x => by rw [List.mem_singleton.1 hq]; exact hc x⟩ a w' hx
    rw [e1, ← e]
    simp only [Option.map_some, hfg _ _ hp]

/-- A legal call of C75 has the same effect when the text in C is executed. -/
theorem step_eq (f arg : Nat) {s : AMem} {a : Ab} {op : Op} (hs : ∀ x, s.byte x < 256) (hl : legal a op) {r : Out × AMem}
    (e : HashFlatSpec.step op s = some r) : step f arg op s = some r := by
  have h0 : ∀ _ : Nat, 0 < 256 := fun _ => by decide
  cases op with
  | init t ty n m c =>
    refine run_ref (ref_init ty t n fun h => ?_) (fun _ _ _ => rfl) hs hl.1.2.2.2 e
    have := hl.1.2.1 h
    have h2 : HashSpec.maxBuckets < 2 ^ sizeBit := by archd
    omega
  | call t ty op m c => exact run_ref (ref_call f arg ty t op hl.2.2) (fun _ _ h => h) hs hl.2.1 e
  | usage t ty => exact run_ref (f := HashSpec.Out.val) (ref_usage ty t) (fun _ _ h => congrArg HashSpec.Out.val h) hs h0 e
  | done t ty => exact run_ref (ref_done ty t) (fun _ _ _ => rfl) hs h0 e
  | destroy t ty => exact run_ref (ref_freeAll f ty t) (fun _ _ _ => rfl) hs h0 e
  | _ => exact e

theorem reach {f arg : Nat} {s : AMem} {a : Ab} (h : (sys f arg).Reach s a) : HashFlatSpec.sys.Reach s a := by
  induction h with
  | init h => exact .init h
  | step hr hl e ih =>
    obtain ⟨out, s', e', _⟩ := HashFlatSpec.sys_correct _ _ ih _ hl.1
    have := step_eq f arg (HashFlatSpec.reach_byte ih) hl e'
    rw [show step f arg _ _ = _ from e] at this
    cases this
    exact .step ih hl.1 e'

theorem sys_correct (f arg : Nat) : (sys f arg).Correct := by
  intro s a hr op hl
  obtain ⟨out, s', e, h⟩ := HashFlatSpec.sys_correct _ _ (reach hr) op hl.1
  exact ⟨out, s', step_eq f arg (HashFlatSpec.reach_byte (reach hr)) hl e, h⟩

theorem step_same {f arg : Nat} {s : AMem} {a : Ab} (hr : (sys f arg).Reach s a) {op : Op} (hl : legal a op) : step f arg op s = HashFlatSpec.step op s := by
  obtain ⟨out, s', e, _⟩ := HashFlatSpec.sys_correct _ _ (reach hr) op hl.1
  rw [show HashFlatSpec.step op s = _ from e]
  exact step_eq f arg (HashFlatSpec.reach_byte (reach hr)) hl e

end CFlatSpec
end Tommy
