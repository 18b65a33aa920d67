import Verif.Proof.CArrTurn
/-! The functions of tommyarray and tommyarrayof. -/
set_option autoImplicit false
set_option linter.unusedSectionVars false
set_option linter.unusedSimpArgs false
namespace Tommy.C
open Src
variable [Arch]

abbrev tArr : CTy := .ptr (.struct "tommy_array_struct")
abbrev tOf : CTy := .ptr (.struct "tommy_arrayof_struct")

/-- The offsets of the fields. -/
def arrMax : Nat := ptrSize * sizeBit
def arrCnt : Nat := arrMax + ptrSize
def arrBit : Nat := arrMax + 2 * ptrSize
def ofEs : Nat := ptrSize * sizeBit
def ofMax : Nat := ofEs + ptrSize
def ofCnt : Nat := ofMax + ptrSize
def ofBit : Nat := ofMax + 2 * ptrSize

@[csem] theorem field_arrBucket : field structs "tommy_array_struct" "bucket" = some (.arr (.ptr (.ptr .void)) sizeBit, 0) := by cases ‹Arch› <;> rfl
@[csem] theorem field_arrMax : field structs "tommy_array_struct" "bucket_max" = some (.usize, arrMax) := by cases ‹Arch› <;> rfl
@[csem] theorem field_arrCnt : field structs "tommy_array_struct" "count" = some (.usize, arrCnt) := by cases ‹Arch› <;> rfl
@[csem] theorem field_arrBit : field structs "tommy_array_struct" "bucket_bit" = some (.u32, arrBit) := by cases ‹Arch› <;> rfl
@[csem] theorem field_ofBucket : field structs "tommy_arrayof_struct" "bucket" = some (.arr (.ptr .void) sizeBit, 0) := by cases ‹Arch› <;> rfl
@[csem] theorem field_ofEs : field structs "tommy_arrayof_struct" "element_size" = some (.usize, ofEs) := by cases ‹Arch› <;> rfl
@[csem] theorem field_ofMax : field structs "tommy_arrayof_struct" "bucket_max" = some (.usize, ofMax) := by cases ‹Arch› <;> rfl
@[csem] theorem field_ofCnt : field structs "tommy_arrayof_struct" "count" = some (.usize, ofCnt) := by cases ‹Arch› <;> rfl
@[csem] theorem field_ofBit : field structs "tommy_arrayof_struct" "bucket_bit" = some (.u32, ofBit) := by cases ‹Arch› <;> rfl

end Tommy.C

namespace Tommy.CArr
open CArraySpec AllocSpec C C.Src
open HashFlat hiding Fresh
variable [Arch] (ext : Ext)

variable {w : AMem} {t o es n b m : Nat} {R : List (Nat × Nat)}

theorem SegR.rMax (h : SegR w t o es n b m R) : InReg w (t + o) ptrSize := h.str.sub (by omega) (by unfold strB; omega)
theorem SegR.rCnt (h : SegR w t o es n b m R) : InReg w (t + (o + ptrSize)) ptrSize := h.str.sub (by omega) (by unfold strB; omega)
theorem SegR.rBit (h : SegR w t o es n b m R) : InReg w (t + (o + 2 * ptrSize)) 4 := h.str.sub (by omega) (by unfold strB; omega)
theorem SegR.rBkt (h : SegR w t o es n b m R) {i : Nat} (hi : i < sizeBit) : InReg w (t + ptrSize * i) ptrSize :=
  h.str.sub (by omega) (by have := bktIn hi; have := h.off; unfold strB; omega)
theorem SegR.vCnt (h : SegR w t o es n b m R) : rdN w.byte (t + (o + ptrSize)) ptrSize = n := by rw [← Nat.add_assoc]; exact h.cnt
theorem SegR.vBit (h : SegR w t o es n b m R) : rdN w.byte (t + (o + 2 * ptrSize)) 4 = b := by rw [← Nat.add_assoc]; exact h.bit

/-! ### grow -/

/-- tommyarray.c:65-76 -/
def arrGrow : Stmt := .while (.bin .gt (.var "count") (.arrow (.var "array") "bucket_max"))
  (.block (.list [
    .decl (.ptr (.ptr .void)) "segment",
    .expr (.assign (.var "segment") (.call "calloc" (.cons (.arrow (.var "array") "bucket_max") (.cons (.sizeT (.ptr .void)) .nil)))),
    .expr (.assign (.index (.arrow (.var "array") "bucket") (.arrow (.var "array") "bucket_bit")) (.addr (.index (.var "segment") (.neg (.cast .ssize (.arrow (.var "array") "bucket_max")))))),
    .expr (.assignOp .add (.arrow (.var "array") "bucket_bit") (.num 1)),
    .expr (.assign (.arrow (.var "array") "bucket_max") (.bin .shl (.cast .usize (.num 1)) (.arrow (.var "array") "bucket_bit")))]))

/-- The part of the struct between the buckets and `bucket_max`. -/
def Mid (t o : Nat) (P : AMem → Prop) : Prop :=
  ∀ w w' : AMem, (∀ x, t + ptrSize * sizeBit ≤ x → x < t + o → w'.byte x = w.byte x) → P w → P w'

theorem grow_loop {γ : Type} (X : BM γ) (r : γ) {P : AMem → Prop} (hP : Mid t o P) (rest : List (Nat × (Nat → Nat))) {c : Nat}
    (stop : ∀ {w b R ms log}, SegR w t o es c b m R → P w → c ≤ 2 ^ b → X ⟨w, ms, log⟩ = some (r, ⟨w, ms, log⟩))
    (turn : ∀ {w b R mm ms log}, SegR w t o es c b m R → Ok w → P w → ¬ c ≤ 2 ^ b → b + 1 < sizeBit → Fresh w.live mm.1 (2 ^ b * es) →
      X ⟨w, mm :: ms, log⟩ = X ⟨turnW w t o es b mm.1, ms, log ++ [.got mm.1 (2 ^ b * es)]⟩) (k : Nat) :
    ∀ {w b R ms log}, SegR w t o es c b m R → Ok w → P w → bits c - b = k →
    Given w.live ((List.range' b k).map fun k => 2 ^ k * es) ms →
    ∃ w', X ⟨w, ms ++ rest, log⟩ = some (r, ⟨w', rest, log ++ (regs ((List.range' b k).map fun k => 2 ^ k * es) ms).map fun x => BEvent.got x.1 x.2⟩) ∧
      Grown w t o es c (b + k) m R (regs ((List.range' b k).map fun k => 2 ^ k * es) ms) w' := by
  induction k with
  | zero =>
    intro w b R ms log h hw hp hk hg
    cases ms with
    | cons => exact hg.elim
    | nil =>
    refine ⟨w, ?_, ⟨by simpa [regs] using h, hw, rfl, fun _ _ => rfl⟩⟩
    rw [stop h hp ((bits_le h.b6).1 (by omega))]
    simp [regs]
  | succ k ih =>
    intro w b R ms log h hw hp hk hg
    have hb := bits_lt h hw hg
    have hc : ¬ c ≤ 2 ^ b := fun hc => by
      have := (bits_le h.b6).2 hc
      omega
    cases ms with
    | nil => exact hg.elim
    | cons mm ms =>
    obtain ⟨hf, _, hg⟩ := hg
    obtain ⟨h1, h2, h3, h4⟩ := turn_spec h hw hf (by omega)
    have hlt := h.str.fresh hf
    have hp' : P (turnW w t o es b mm.1) := hP w _ (fun x hx1 hx2 => h4 x ⟨.inr (.inl ⟨hx1, hx2⟩), by
      intro r hr
      rw [List.mem_singleton] at hr
      subst hr
      unfold strB at hlt
      dsimp only at hlt ⊢
      omega⟩) hp
    obtain ⟨w', e, g⟩ := ih (log := log ++ [.got mm.1 (2 ^ b * es)]) h1 h2 hp' (by omega) (by rw [h3]; exact hg)
    refine ⟨w', ?_, ?_⟩
    · rw [List.cons_append, turn h hw hp hc (by omega) hf, e, List.range'_succ]
      simp [regs]
    · rw [List.range'_succ]
      have e1 : regs (List.map (fun k => 2 ^ k * es) (b :: List.range' (b + 1) k)) (mm :: ms) =
        (mm.1, 2 ^ b * es) :: regs (List.map (fun k => 2 ^ k * es) (List.range' (b + 1) k)) ms := rfl
      rw [e1]
      refine ⟨?_, g.ok, ?_, ?_⟩
      · have := g.seg
        rwa [List.append_assoc, List.singleton_append, show b + 1 + k = b + (k + 1) by omega] at this
      · rw [g.live, h3]; rfl
      · intro x hx
        rw [g.out x ⟨hx.1, fun r hr => hx.2 r (List.mem_cons_of_mem _ hr)⟩, h4 x ⟨hx.1, fun r hr => hx.2 r (by
          rw [List.mem_singleton] at hr; subst hr; exact List.mem_cons_self ..)⟩]

theorem inc32 {b : Nat} (h : b < sizeBit) : (b + 1) % 4294967296 = b + 1 := Nat.mod_eq_of_lt (by have := sizeBit_lt; omega)

theorem psub_eq {w : AMem} {p b : Nat} (hf : Fresh w.live p (2 ^ b * ptrSize)) : psub p (2 ^ b) = subT p (ptrSize * 2 ^ b) := by
  unfold psub
  rw [Nat.mod_eq_of_lt]
  have := hf.lt
  rw [Nat.mul_comm]; omega

/-- Inequalities of offsets. -/
macro "offs" : tactic => `(tactic| ((try simp only [arrMax, arrCnt, arrBit, ofEs, ofMax, ofCnt, ofBit, strB] at *); omega))

/-- A part of the region. -/
macro "sub" h:term : tactic => `(tactic| exact InReg.sub $h (by offs) (by offs))

theorem exec_arrGrow {ms rest : List (Nat × (Nat → Nat))} {log : List BEvent} {c : Nat} (h : SegR w t arrMax ptrSize c b m R) (hw : Ok w)
    (hg : Given w.live ((List.range' b (bits c - b)).map fun k => 2 ^ k * ptrSize) ms) :
    ∃ w', exec structs ext (run ext) arrGrow [("array", tArr, [some t]), ("count", .usize, [some c])] ⟨w, ms ++ rest, log⟩ =
      some ((.normal, [("array", tArr, [some t]), ("count", .usize, [some c])]),
        ⟨w', rest, log ++ (regs ((List.range' b (bits c - b)).map fun k => 2 ^ k * ptrSize) ms).map fun x => BEvent.got x.1 x.2⟩) ∧
      Grown w t arrMax ptrSize c (b + (bits c - b)) m R (regs ((List.range' b (bits c - b)).map fun k => 2 ^ k * ptrSize) ms) w' := by
  obtain ⟨W, hW⟩ : ∃ W, W = arrGrow := ⟨_, rfl⟩
  rw [← hW]
  unfold arrGrow at hW
  refine grow_loop (P := fun _ => True) _ _ (fun _ _ _ _ => trivial) rest ?_ ?_ _ h hw trivial rfl hg
  · intro w b R ms log h _ hc
    rw [exec_while ext _ hW]
    csimp
    rw [get_step h.rMax h.max, if_neg (Nat.not_lt.2 hc)]
    rfl
  · intro w b R mm ms log h hw _ hc hb hf
    obtain ⟨x, e1, e2⟩ := neg_elem mm.1 (n := 2 ^ b) (pow_lt_pow' (by omega))
    conv => lhs; rw [exec_while ext _ hW]
    simp only [Stmt.list]
    csimp
    have hs := h.str.cal hf
    have hB : strB arrMax = arrMax + 2 * ptrSize + 4 := rfl
    have hlt := h.str.fresh hf
    have ho := h.off
    have hin := bktIn h.blt
    rw [get_step h.rMax h.max, if_pos (Nat.lt_of_not_le hc), get_step h.rMax h.max, calloc_step,
      get_step (v := 2 ^ b) (hs.sub (by omega) (by omega)) (by rw [rd_cal_out (by omega)]; exact h.max),
      conv_ssize_usize (pow_lt_pow' h.blt), e1]
    csimp
    rw [get32_step (v := b) (by sub hs) (by rw [rd_cal_out (by offs)]; exact h.vBit), if_pos h.blt, e2, psub_eq hf, set_step (by sub hs),
      get32_step (v := b) (by sub hs) (by rw [rd_set_out (by offs), rd_cal_out (by offs)]; exact h.vBit), inc32 h.blt, set32_step (by sub hs),
      get32_step (v := b + 1) (by sub hs) (rd_set (by have := sizeBit_lt; omega)), shl_step hb, set_step (by sub hs)]
    rfl

end Tommy.CArr
