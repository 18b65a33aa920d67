import Verif.Proof.CArrSeg
/-! grow of the segments: the memory. -/
set_option autoImplicit false
set_option linter.unusedSectionVars false
namespace Tommy.CArr
open CArraySpec AllocSpec
open HashFlat hiding Fresh
variable [Arch]

/-- The memory after a turn of the loop of grow. -/
def turnW (w : AMem) (t o es b p : Nat) : AMem :=
  setW (setW (setW (calW w p (2 ^ b * es)) (t + ptrSize * b) ptrSize (subT p (es * 2 ^ b))) (t + (o + 2 * ptrSize)) 4 (b + 1)) (t + o) ptrSize (2 ^ (b + 1))

/-- The byte `x` is not written by a grow which allocates `L`. -/
def Outs (t o : Nat) (L : List (Nat × Nat)) (x : Nat) : Prop :=
  (x < t ∨ (t + ptrSize * sizeBit ≤ x ∧ x < t + o) ∨ t + strB o ≤ x) ∧ ∀ r ∈ L, x < r.1 ∨ r.1 + r.2 ≤ x

variable {w : AMem} {t o es n b m : Nat} {R : List (Nat × Nat)}

theorem subT_lt (a b : Nat) : subT a b < 2 ^ sizeBit := Nat.mod_lt _ C.pow_pos'

theorem pow_lt_pow' {a b : Nat} (h : a < b) : 2 ^ a < 2 ^ b := Nat.pow_lt_pow_right (by decide) h

theorem bktIn {i : Nat} (hi : i < sizeBit) : ptrSize * i + ptrSize ≤ ptrSize * sizeBit := by
  rw [← Nat.mul_succ]; exact Nat.mul_le_mul_left _ hi

theorem p4 : 4 ≤ ptrSize := by arch
theorem sizeBit_lt : sizeBit < 2 ^ 31 := by cases ‹Arch› <;> decide

theorem turn_spec (h : SegR w t o es n b m R) (hw : Ok w) {p : Nat} (hf : Fresh w.live p (2 ^ b * es)) (hb : b + 1 < sizeBit) :
    SegR (turnW w t o es b p) t o es n (b + 1) m (R ++ [(p, 2 ^ b * es)]) ∧ Ok (turnW w t o es b p) ∧
    (turnW w t o es b p).live = upd w.live p (some (2 ^ b * es)) ∧ ∀ x, Outs t o [(p, 2 ^ b * es)] x → (turnW w t o es b p).byte x = w.byte x := by
  have hB : strB o = o + 2 * ptrSize + 4 := rfl
  have h4 := p4
  have ho := h.off
  have hin := bktIn h.blt
  have hstr : t + strB o ≤ p ∨ p + 2 ^ b * es ≤ t := h.str.fresh hf
  have hout : ∀ x, Outs t o [(p, 2 ^ b * es)] x → (turnW w t o es b p).byte x = w.byte x := by
    intro x ⟨h1, h2⟩
    have h2 := h2 _ (List.mem_singleton_self _)
    unfold turnW
    rw [set_out (by omega), set_out (by omega), set_out (by omega), cal_out h2]
  refine ⟨h.turn hf hb rfl (fun x h1 h2 => hout x ⟨by omega, by simpa using h2⟩) ?_ ?_ ?_ ?_ ?_ ?_, ?_, rfl, hout⟩
  · intro x h1 h2
    unfold turnW
    rw [set_out (by omega), set_out (by omega), set_out (by omega), cal_in h1 h2]
  · exact rd_set (by rw [C.eight_ptr]; exact pow_lt_pow' hb)
  · unfold turnW
    rw [rd_set_out (by omega), rd_set_out (by omega), rd_set_out (by omega), rd_cal_out (by omega)]
    exact h.cnt
  · unfold turnW
    rw [rd_set_out (by omega), Nat.add_assoc t, rd_set (Nat.lt_trans (Nat.lt_trans hb sizeBit_lt) (by decide))]
  · intro i hi
    have h1 : ptrSize * i + ptrSize ≤ ptrSize * b := by rw [← Nat.mul_succ]; exact Nat.mul_le_mul_left _ hi
    unfold turnW
    rw [rd_set_out (by omega), rd_set_out (by omega), rd_set_out (by omega), rd_cal_out (by omega)]
  · unfold turnW
    rw [rd_set_out (by omega), rd_set_out (by omega), rd_set (by rw [C.eight_ptr]; exact subT_lt _ _)]
  · exact ok_set (ok_set (ok_set (ok_cal hw hf) _ _ _) _ _ _) _ _ _

/-- The segments after a grow which allocates `L`. -/
structure Grown (w : AMem) (t o es n b m : Nat) (R L : List (Nat × Nat)) (w' : AMem) : Prop where
  seg : SegR w' t o es n b m (R ++ L)
  ok : Ok w'
  live : w'.live = addRegs w.live L
  out : ∀ x, Outs t o L x → w'.byte x = w.byte x

omit [Arch] in
theorem bits_le {c b : Nat} (hb : 6 ≤ b) : bits c ≤ b ↔ c ≤ 2 ^ b := by
  unfold bits
  rw [Nat.max_le, Nat.clog_le_iff_le_pow (by decide)]
  exact ⟨fun h => h.2, fun h => ⟨hb, h⟩⟩

omit [Arch] in
theorem bits6 (c : Nat) : 6 ≤ bits c := Nat.le_max_left _ _
omit [Arch] in
theorem le_bits (c : Nat) : c ≤ 2 ^ bits c := (bits_le (bits6 c)).1 (Nat.le_refl _)
omit [Arch] in
theorem bits_mono {a b : Nat} (h : a ≤ b) : bits a ≤ bits b := (bits_le (bits6 b)).2 (Nat.le_trans h (le_bits b))

/-- The segments after the grow are in the address space. -/
theorem bits_lt (h : SegR w t o es n b m R) (hw : Ok w) {ms : List (Nat × (Nat → Nat))} {k : Nat}
    (hg : Given w.live ((List.range' b k).map fun k => 2 ^ k * es) ms) : b + k < sizeBit := by
  have hL := given_add ⟨hw.pos, hw.reg⟩ hg
  have hsum : ((regs ((List.range' b k).map fun k => 2 ^ k * es) ms).map Prod.snd).sum + 2 ^ b * es = 2 ^ (b + k) * es := by
    have e : (regs ((List.range' b k).map fun k => 2 ^ k * es) ms).map Prod.snd = (List.range' b k).map fun k => 2 ^ k * es := by
      unfold regs
      have := given_len hg
      rw [List.map_zipWith]
      refine List.ext_getElem (by simp at this ⊢; omega) ?_
      intro i h1 h2
      simp
    rw [e]
    clear e hL hg
    induction k generalizing b with
    | zero => simp
    | succ k ih =>
      rw [List.range'_succ, List.map_cons, List.sum_cons]
      have key : ∀ b : Nat, ((List.range' b k).map fun k => 2 ^ k * es).sum + 2 ^ b * es = 2 ^ (b + k) * es := by
        clear ih h
        intro b
        induction k generalizing b with
        | zero => simp
        | succ k ih =>
          rw [List.range'_succ, List.map_cons, List.sum_cons]
          have := ih (b + 1)
          rw [Nat.pow_succ, Nat.mul_comm (2 ^ b) 2, Nat.mul_assoc, show b + 1 + k = b + (k + 1) by omega] at this
          omega
      have := key (b + 1)
      rw [Nat.pow_succ, Nat.mul_comm (2 ^ b) 2, Nat.mul_assoc, show b + 1 + k = b + (k + 1) by omega] at this
      omega
  have := sum_lt (w := ⟨w.byte, addRegs w.live (regs ((List.range' b k).map fun k => 2 ^ k * es) ms)⟩) ⟨hw.byte, hL.1.pos, hL.1.reg⟩
    (R ++ regs ((List.range' b k).map fun k => 2 ^ k * es) ms)
    (by
      rw [List.map_append, List.nodup_append]
      refine ⟨h.nodup, hL.2.2.2.2, ?_⟩
      intro x hx y hy e
      rw [List.mem_map] at hx hy
      obtain ⟨r, hr, rfl⟩ := hx
      obtain ⟨q, hq, rfl⟩ := hy
      have h1 := hL.2.2.2.1 q hq
      rw [← e, h.live r hr] at h1
      cases h1)
    (by
      intro r hr
      rw [List.mem_append] at hr
      rcases hr with hr | hr
      · exact hL.2.1 _ _ (h.live r hr)
      · exact (hL.2.2.1 r hr).1)
  rw [List.map_append, List.sum_append, h.sum, Nat.add_comm, hsum] at this
  have h1 : 2 ^ (b + k) < 2 ^ sizeBit := Nat.lt_of_le_of_lt (Nat.le_mul_of_pos_right _ h.ess) this
  exact (Nat.pow_lt_pow_iff_right (by decide)).1 h1

/-- Writes the count. -/
theorem SegR.count (h : SegR w t o es n b m R) {c : Nat} (hc : c < 2 ^ sizeBit) : SegR (setW w (t + (o + ptrSize)) ptrSize c) t o es c b m R := by
  have hB : strB o = o + 2 * ptrSize + 4 := rfl
  have h4 := p4
  have ho := h.off
  refine { h with str := h.str.setL rfl, max := ?_, cnt := ?_, bit := ?_, bkt := ?_, zero := ?_ }
  · rw [rd_set_out (by omega)]; exact h.max
  · rw [Nat.add_assoc]; exact rd_set (by rw [C.eight_ptr]; exact hc)
  · rw [rd_set_out (by omega)]; exact h.bit
  · intro i hi
    have := bktIn (Nat.lt_trans hi h.blt)
    rw [rd_set_out (by omega)]; exact h.bkt i hi
  · intro pos h1 h2 x h3 h4
    obtain ⟨r, hr, _, h5, h6⟩ := h.elem h2
    have := h.sep r hr
    rw [set_out (by omega)]
    exact h.zero pos h1 h2 x h3 h4

/-- Less unused elements. -/
theorem SegR.mono (h : SegR w t o es n b m R) {m' : Nat} (hm : m ≤ m') : SegR w t o es n b m' R :=
  { h with zero := fun pos h1 => h.zero pos (Nat.le_trans hm h1) }

end Tommy.CArr
