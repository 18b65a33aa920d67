import Verif.Proof.CArrMem
/-! The segments of the arrays in the memory of bytes. -/
set_option autoImplicit false
set_option linter.unusedSectionVars false
namespace Tommy.CArr
open CArraySpec AllocSpec
open HashFlat hiding Fresh
variable [Arch]

/-- The first position of a segment, and the number of positions. -/
def segStart (j : Nat) : Nat := if j = 0 then 0 else 2 ^ (j + 5)
def segSize (j : Nat) : Nat := if j = 0 then 64 else 2 ^ (j + 5)

/-- The segment of a position. -/
def segIx (pos : Nat) : Nat := pos.log2 - 5

omit [Arch] in
theorem seg_bounds (pos : Nat) : segStart (segIx pos) ≤ pos ∧ pos < segStart (segIx pos) + segSize (segIx pos) := by
  unfold segIx
  have h1 : pos < 2 ^ (pos.log2 + 1) := Nat.lt_log2_self
  by_cases h : pos.log2 ≤ 5
  · rw [Nat.sub_eq_zero_of_le h]
    have : 2 ^ (pos.log2 + 1) ≤ 2 ^ 6 := Nat.pow_le_pow_right (by decide) (by omega)
    simp only [segStart, segSize, if_true]; omega
  · have h0 : pos ≠ 0 := by rintro rfl; exact h (by decide)
    have h2 := Nat.log2_self_le h0
    unfold segStart segSize
    rw [if_neg (by omega), if_neg (by omega), show pos.log2 - 5 + 5 = pos.log2 by omega]
    rw [Nat.pow_succ] at h1
    omega

omit [Arch] in
theorem log2_lt_of {pos b : Nat} (h : pos < 2 ^ b) (hb : 0 < b) : pos.log2 < b := by
  by_cases h0 : pos = 0
  · subst h0; exact hb
  · exact (Nat.log2_lt h0).2 h

omit [Arch] in
theorem log2_or (pos : Nat) : (pos ||| 1).log2 - 5 = segIx pos := by
  unfold segIx
  by_cases h0 : pos = 0
  · subst h0; decide
  · congr 1
    have h1 : pos < 2 ^ (pos.log2 + 1) := Nat.lt_log2_self
    have h2 := Nat.log2_self_le h0
    have h3 : pos ||| 1 < 2 ^ (pos.log2 + 1) := Nat.or_lt_two_pow h1 (Nat.one_lt_two_pow (by omega))
    have h4 := Nat.left_le_or (n := pos) (m := 1)
    have h5 := C.or_one_ne pos
    have := (Nat.log2_lt h5).2 h3
    have := (Nat.le_log2 h5).2 (Nat.le_trans h2 h4)
    omega

omit [Arch] in
theorem segIx_lt {pos b : Nat} (h : pos < 2 ^ b) (hb : 6 ≤ b) : segIx pos < b - 5 := by
  have := log2_lt_of h (by omega)
  unfold segIx; omega

omit [Arch] in
theorem seg_inj {j j' : Nat} (h : j ≠ j') : segStart j + segSize j ≤ segStart j' ∨ segStart j' + segSize j' ≤ segStart j := by
  have key : ∀ a b : Nat, a < b → segStart a + segSize a ≤ segStart b := by
    intro a b hab
    unfold segStart segSize
    by_cases ha : a = 0
    · subst ha
      rw [if_pos rfl, if_pos rfl, if_neg (by omega)]
      have : 2 ^ 6 ≤ 2 ^ (b + 5) := Nat.pow_le_pow_right (by decide) (by omega)
      omega
    · rw [if_neg ha, if_neg ha, if_neg (by omega)]
      have : 2 ^ (a + 5 + 1) ≤ 2 ^ (b + 5) := Nat.pow_le_pow_right (by decide) (by omega)
      rw [Nat.pow_succ] at this
      omega
  rcases Nat.lt_or_gt_of_ne h with h | h
  · exact .inl (key _ _ h)
  · exact .inr (key _ _ h)

omit [Arch] in
theorem segSize_new {b : Nat} (h : 6 ≤ b) : segSize (b - 5) = 2 ^ b ∧ segStart (b - 5) = 2 ^ b := by
  unfold segSize segStart
  rw [if_neg (by omega), if_neg (by omega), show b - 5 + 5 = b by omega]
  exact ⟨rfl, rfl⟩

/-- The address of a segment, and of an element. -/
def base (R : List (Nat × Nat)) (j : Nat) : Nat := (R.getD j (0, 0)).1
def eaddr (R : List (Nat × Nat)) (es pos : Nat) : Nat := base R (segIx pos) + es * (pos - segStart (segIx pos))

/-- The bytes of the struct used. -/
def strB (o : Nat) : Nat := o + 2 * ptrSize + 4

/-- The segments `R` of the array at `t` in the memory `w`: `n` elements of `es` bytes with the count at `t + o + ptrSize`, room for `2 ^ b` elements;
    the ones from the position `m` are zero. -/
structure SegR (w : AMem) (t o es n b m : Nat) (R : List (Nat × Nat)) : Prop where
  b6 : 6 ≤ b
  blt : b < sizeBit
  off : ptrSize * sizeBit ≤ o
  ess : 0 < es
  len : R.length = b - 5
  str : InReg w t (strB o)
  max : rdN w.byte (t + o) ptrSize = 2 ^ b
  cnt : rdN w.byte (t + o + ptrSize) ptrSize = n
  bit : rdN w.byte (t + o + 2 * ptrSize) 4 = b
  bkt : ∀ i, i < b → rdN w.byte (t + ptrSize * i) ptrSize = subT (base R (i - 5)) (es * segStart (i - 5))
  reg : ∀ j, j < b - 5 → (R.getD j (0, 0)).2 = segSize j * es
  live : ∀ r ∈ R, w.live r.1 = some r.2
  nodup : (R.map Prod.fst).Nodup
  sep : ∀ r ∈ R, t + strB o ≤ r.1 ∨ r.1 + r.2 ≤ t
  zero : ∀ pos, m ≤ pos → pos < 2 ^ b → ∀ x, eaddr R es pos ≤ x → x < eaddr R es pos + es → w.byte x = 0

omit [Arch] in
theorem getD_mem {R : List (Nat × Nat)} {j : Nat} (h : j < R.length) : R.getD j (0, 0) ∈ R := by
  rw [List.getD_eq_getElem _ _ h]; exact List.getElem_mem h

omit [Arch] in
theorem getD_inj {R : List (Nat × Nat)} (hn : (R.map Prod.fst).Nodup) {i j : Nat} (hi : i < R.length) (hj : j < R.length)
    (e : (R.getD i (0, 0)).1 = (R.getD j (0, 0)).1) : i = j := by
  rw [List.getD_eq_getElem _ _ hi, List.getD_eq_getElem _ _ hj] at e
  have := (List.nodup_iff_injective_get.1 hn)
  have e' : (R.map Prod.fst).get ⟨i, by simpa using hi⟩ = (R.map Prod.fst).get ⟨j, by simpa using hj⟩ := by simpa using e
  exact congrArg Fin.val (this e')

section
variable {w : AMem} {t o es n b m : Nat} {R : List (Nat × Nat)}

/-- An element is in a segment. -/
theorem SegR.elem (h : SegR w t o es n b m R) {pos : Nat} (hp : pos < 2 ^ b) :
    ∃ r ∈ R, r = R.getD (segIx pos) (0, 0) ∧ r.1 ≤ eaddr R es pos ∧ eaddr R es pos + es ≤ r.1 + r.2 := by
  have h1 := segIx_lt hp h.b6
  refine ⟨_, getD_mem (by rw [h.len]; exact h1), rfl, Nat.le_add_right _ _, ?_⟩
  have h2 := h.reg _ h1
  have h3 := seg_bounds pos
  unfold eaddr base
  rw [h2]
  have : es * (pos - segStart (segIx pos)) + es ≤ segSize (segIx pos) * es := by
    rw [← Nat.mul_succ, Nat.mul_comm]
    exact Nat.mul_le_mul_right _ (by omega)
  omega

/-- Two elements are disjoint. -/
theorem SegR.apart (h : SegR w t o es n b m R) (hw : Ok w) {p q : Nat} (hp : p < 2 ^ b) (hq : q < 2 ^ b) (hne : p ≠ q) :
    eaddr R es p + es ≤ eaddr R es q ∨ eaddr R es q + es ≤ eaddr R es p := by
  obtain ⟨r, hr, e, h1, h2⟩ := h.elem hp
  obtain ⟨r', hr', e', h1', h2'⟩ := h.elem hq
  by_cases hj : segIx p = segIx q
  · unfold eaddr
    rw [hj]
    have b1 := seg_bounds p
    have b2 := seg_bounds q
    rw [hj] at b1
    have key : ∀ a c : Nat, a < c → es * a + es ≤ es * c := fun a c hac => by
      rw [← Nat.mul_succ]; exact Nat.mul_le_mul_left _ hac
    rcases Nat.lt_or_gt_of_ne hne with hlt | hlt
    · left; have := key (p - segStart (segIx q)) (q - segStart (segIx q)) (by omega); omega
    · right; have := key (q - segStart (segIx q)) (p - segStart (segIx q)) (by omega); omega
  · have : r.1 ≠ r'.1 := by
      intro e1
      rw [e, e'] at e1
      exact hj (getD_inj h.nodup (by rw [h.len]; exact segIx_lt hp h.b6) (by rw [h.len]; exact segIx_lt hq h.b6) e1)
    have := hw.reg _ _ _ _ (h.live r hr) (h.live r' hr') this
    omega

/-- `bucket[i] + es * pos` -/
theorem SegR.addr (h : SegR w t o es n b m R) (hw : Ok w) {pos : Nat} (hp : pos < 2 ^ b) :
    (subT (base R (segIx pos)) (es * segStart (segIx pos)) + es * pos) % 2 ^ sizeBit = eaddr R es pos := by
  obtain ⟨r, hr, e, h1, h2⟩ := h.elem hp
  have h3 := hw.pos _ _ (h.live r hr)
  have h4 := (seg_bounds pos).1
  have h5 : es * segStart (segIx pos) ≤ r.2 := by
    rw [e, h.reg _ (segIx_lt hp h.b6), Nat.mul_comm]
    refine Nat.mul_le_mul_right _ ?_
    unfold segStart segSize; split <;> omega
  have h6 : es * pos = es * segStart (segIx pos) + es * (pos - segStart (segIx pos)) := by
    rw [← Nat.mul_add]; congr 1; omega
  unfold eaddr at *
  rw [h6]
  unfold subT
  rw [Nat.mod_add_mod]
  have hb : base R (segIx pos) = r.1 := by rw [e]; rfl
  rw [hb] at h1 h2 ⊢
  have := h.ess
  rw [show r.1 + 2 ^ sizeBit - es * segStart (segIx pos) + (es * segStart (segIx pos) + es * (pos - segStart (segIx pos))) =
    r.1 + es * (pos - segStart (segIx pos)) + 2 ^ sizeBit by omega, Nat.add_mod_right, Nat.mod_eq_of_lt (by omega)]

/-- The bytes that the representation reads. -/
def SegUses (t o es b m : Nat) (R : List (Nat × Nat)) (x : Nat) : Prop :=
  (t ≤ x ∧ x < t + strB o) ∨ ∃ pos, m ≤ pos ∧ pos < 2 ^ b ∧ eaddr R es pos ≤ x ∧ x < eaddr R es pos + es

theorem SegR.congr (h : SegR w t o es n b m R) {w' : AMem} (hs : InReg w' t (strB o)) (hl : ∀ r ∈ R, w'.live r.1 = some r.2)
    (hb : ∀ x, SegUses t o es b m R x → w'.byte x = w.byte x) : SegR w' t o es n b m R := by
  have rd : ∀ k c, k + c ≤ strB o → rdN w'.byte (t + k) c = rdN w.byte (t + k) c := fun k c hk =>
    rdN_congr fun x h1 h2 => hb x (.inl (by omega))
  have hB : strB o = o + 2 * ptrSize + 4 := rfl
  refine { h with str := hs, live := hl, max := ?_, cnt := ?_, bit := ?_, bkt := ?_, zero := ?_ }
  · rw [rd _ _ (by omega)]; exact h.max
  · rw [Nat.add_assoc, rd _ _ (by omega), ← Nat.add_assoc]; exact h.cnt
  · rw [Nat.add_assoc, rd _ _ (by omega), ← Nat.add_assoc]; exact h.bit
  · intro i hi
    have : ptrSize * (i + 1) ≤ ptrSize * sizeBit := Nat.mul_le_mul_left _ (by have := h.blt; omega)
    rw [Nat.mul_succ] at this
    have := h.off
    rw [rd _ _ (by omega)]; exact h.bkt i hi
  · intro pos h1 h2 x h3 h4
    rw [hb x (.inr ⟨pos, h1, h2, h3, h4⟩)]
    exact h.zero pos h1 h2 x h3 h4

omit [Arch] in
theorem base_app {R R' : List (Nat × Nat)} {j : Nat} (h : j < R.length) : (R ++ R').getD j (0, 0) = R.getD j (0, 0) := by
  simp [List.getD_eq_getElem?_getD, List.getElem?_append_left h]

omit [Arch] in
theorem base_new {R : List (Nat × Nat)} {r : Nat × Nat} : (R ++ [r]).getD R.length (0, 0) = r := by
  simp [List.getD_eq_getElem?_getD]

omit [Arch] in
theorem eaddr_app {R R' : List (Nat × Nat)} {es pos b : Nat} (hl : R.length = b - 5) (hb : 6 ≤ b) (hp : pos < 2 ^ b) :
    eaddr (R ++ R') es pos = eaddr R es pos := by
  unfold eaddr base
  rw [base_app (by rw [hl]; exact segIx_lt hp hb)]

/-- One turn of the loop of grow. -/
theorem SegR.turn (h : SegR w t o es n b m R) {w' : AMem} {p : Nat} (hf : Fresh w.live p (2 ^ b * es)) (hb : b + 1 < sizeBit)
    (hl : w'.live = upd w.live p (some (2 ^ b * es)))
    (hout : ∀ x, x < t ∨ t + strB o ≤ x → x < p ∨ p + 2 ^ b * es ≤ x → w'.byte x = w.byte x)
    (hin : ∀ x, p ≤ x → x < p + 2 ^ b * es → w'.byte x = 0)
    (hmax : rdN w'.byte (t + o) ptrSize = 2 ^ (b + 1)) (hcnt : rdN w'.byte (t + o + ptrSize) ptrSize = n)
    (hbit : rdN w'.byte (t + o + 2 * ptrSize) 4 = b + 1)
    (hold : ∀ i, i < b → rdN w'.byte (t + ptrSize * i) ptrSize = rdN w.byte (t + ptrSize * i) ptrSize)
    (hnew : rdN w'.byte (t + ptrSize * b) ptrSize = subT p (es * 2 ^ b)) : SegR w' t o es n (b + 1) m (R ++ [(p, 2 ^ b * es)]) := by
  have b6 := h.b6
  have hlen := h.len
  have hup : ∀ c k, w.live c = some k → w'.live c = some k := by
    intro c k e
    rw [hl, upd_ne]
    · exact e
    · rintro rfl; rw [hf.none] at e; cases e
  have hstr : t + strB o ≤ p ∨ p + 2 ^ b * es ≤ t := h.str.fresh hf
  refine ⟨by omega, hb, h.off, h.ess, by simp [hlen]; omega, ?_, hmax, hcnt, hbit, ?_, ?_, ?_, ?_, ?_, ?_⟩
  · obtain ⟨c, k, h1, h2, h3⟩ := h.str
    exact ⟨c, k, hup c k h1, h2, h3⟩
  · intro i hi
    by_cases hib : i = b
    · subst hib
      rw [hnew]
      unfold base
      rw [← hlen, base_new, hlen, (segSize_new b6).2]
    · unfold base
      rw [hold i (by omega), base_app (by omega), h.bkt i (by omega)]; rfl
  · intro j hj
    by_cases hjb : j = b - 5
    · subst hjb
      rw [(segSize_new b6).1]
      rw [← hlen, base_new]
    · rw [base_app (by omega)]; exact h.reg j (by omega)
  · intro r hr
    rw [List.mem_append, List.mem_singleton] at hr
    rcases hr with hr | rfl
    · exact hup _ _ (h.live r hr)
    · rw [hl, upd_same]
  · rw [List.map_append, List.nodup_append]
    refine ⟨h.nodup, by simp, ?_⟩
    intro x hx y hy
    rw [List.map_cons, List.map_nil, List.mem_singleton] at hy
    subst hy
    rw [List.mem_map] at hx
    obtain ⟨r, hr, rfl⟩ := hx
    intro e
    have := h.live r hr
    rw [e, hf.none] at this
    cases this
  · intro r hr
    rw [List.mem_append, List.mem_singleton] at hr
    rcases hr with hr | rfl
    · exact h.sep r hr
    · exact hstr
  · intro pos h1 h2 x h3 h4
    by_cases hp : pos < 2 ^ b
    · rw [eaddr_app hlen b6 hp] at h3 h4
      obtain ⟨r, hr, _, h5, h6⟩ := h.elem hp
      have h7 := hf.sep _ _ (h.live r hr)
      have h8 := h.sep r hr
      rw [hout x (by omega) (by omega)]
      exact h.zero pos h1 hp x h3 h4
    · have hlog : pos.log2 = b := by
        have h0 : pos ≠ 0 := by have := Nat.two_pow_pos b; omega
        have := (Nat.log2_lt h0).2 h2
        have := (Nat.le_log2 h0).2 (Nat.le_of_not_lt hp)
        omega
      have hix : segIx pos = b - 5 := by unfold segIx; rw [hlog]
      have hb2 := (seg_bounds pos).2
      have e : eaddr (R ++ [(p, 2 ^ b * es)]) es pos = p + es * (pos - 2 ^ b) := by
        unfold eaddr base
        rw [hix, (segSize_new b6).2, ← hlen, base_new]
      rw [e] at h3 h4
      rw [hix, (segSize_new b6).1, (segSize_new b6).2] at hb2
      have : es * (pos - 2 ^ b) + es ≤ 2 ^ b * es := by
        rw [← Nat.mul_succ, Nat.mul_comm]
        exact Nat.mul_le_mul_right _ (by omega)
      exact hin x (by omega) (by omega)

/-- The sum of the segments. -/
theorem SegR.sum (h : SegR w t o es n b m R) : (R.map Prod.snd).sum = 2 ^ b * es := by
  have key : ∀ k (R : List (Nat × Nat)), R.length = k + 1 → (∀ j, j < k + 1 → (R.getD j (0, 0)).2 = segSize j * es) → (R.map Prod.snd).sum = 2 ^ (k + 6) * es := by
    intro k
    induction k with
    | zero =>
      intro R hR hr
      match R, hR with
      | [r], _ => have := hr 0 (by decide); simpa [segSize] using this
    | succ k ih =>
      intro R hR hr
      rcases List.eq_nil_or_concat R with rfl | ⟨L, a, rfl⟩
      · cases hR
      · rw [List.concat_eq_append] at *
        have hL : L.length = k + 1 := by simpa using hR
        have h1 := ih L hL fun j hj => by rw [← hr j (by omega), base_app (by omega)]
        have h2 := hr (k + 1) (by omega)
        rw [← hL, base_new, hL] at h2
        rw [List.map_append, List.sum_append, h1]
        simp only [List.map_cons, List.map_nil, List.sum_cons, List.sum_nil, Nat.add_zero, h2, segSize]
        rw [if_neg (by omega), ← Nat.add_mul]
        congr 1
        rw [show k + 1 + 5 = k + 6 by omega, show k + 1 + 6 = k + 6 + 1 by omega, Nat.pow_succ 2 (k + 6)]
        omega
  have b6 := h.b6
  rw [key (b - 6) R (by rw [h.len]; omega) fun j hj => h.reg j (by omega), show b - 6 + 6 = b by omega]

end

end Tommy.CArr
