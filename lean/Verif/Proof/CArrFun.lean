import Verif.Proof.CArrRun
/-! The functions of tommyarray. -/
set_option autoImplicit false
set_option linter.unusedSectionVars false
set_option linter.unusedSimpArgs false
namespace Tommy.CArr
open CArraySpec AllocSpec C C.Src
open HashFlat hiding Fresh
variable [Arch] (ext : Ext)

variable {w : AMem} {t o es n b m : Nat} {R : List (Nat × Nat)}

theorem arr_assert (v : Val) : run ext "assert" [v] = if v.v = 0 then fail else pure ⟨.void, 0⟩ := by
  rw [run.eq_1]
  simp only [builtin]
  split <;> rfl

theorem bind_step {α β : Type} {x : BM α} {f : α → BM β} {w w' : BMem} {a : α} (h : x w = some (a, w')) : (x >>= f) w = f a w' := by
  show (x w).bind _ = _
  rw [h]; rfl

/-! ### grow -/

theorem Grown.count {c : Nat} {L : List (Nat × Nat)} {w' : AMem} {b' : Nat} (h : Grown (setW w (t + (o + ptrSize)) ptrSize c) t o es n b' m R L w')
    (ho : ptrSize * sizeBit ≤ o) : Grown w t o es n b' m R L w' := by
  refine ⟨h.seg, h.ok, h.live, fun x hx => ?_⟩
  rw [h.out x hx, set_out]
  have := hx.1
  unfold strB at this
  omega

theorem bits_add {n c : Nat} (h : n ≤ c) : bits n + (bits c - bits n) = bits c := by have := bits_mono h; omega

theorem run_array_grow (s : CTy) {ms rest : List (Nat × (Nat → Nat))} {log : List BEvent} {c : Nat} (h : SegR w t arrMax ptrSize n (bits n) m R)
    (hw : Ok w) (hc : c < 2 ^ sizeBit) (hg : Given w.live (segAsks ptrSize n c) ms) :
    ∃ w', run ext "tommy_array_grow" [⟨.ptr s, t⟩, ⟨.usize, c⟩] ⟨w, ms ++ rest, log⟩ =
      some (⟨.void, 0⟩, ⟨w', rest, log ++ (regs (segAsks ptrSize n c) ms).map fun x => BEvent.got x.1 x.2⟩) ∧
      Grown w t arrMax ptrSize (max n c) (bits (max n c)) m R (regs (segAsks ptrSize n c) ms) w' := by
  rw [run_fun rfl (show funs _ = some f_tommy_array_grow from rfl)]
  unfold f_tommy_array_grow
  have hW := fun (w' : AMem) h hw hg => exec_arrGrow ext (w := w') (t := t) (b := bits n) (m := m) (R := R) (ms := ms) (rest := rest) (log := log) (c := c) h hw hg
  unfold arrGrow at hW
  generalize Stmt.while _ _ = W at hW ⊢
  simp only [Stmt.list]
  csimp
  rw [get_step (p := t + arrCnt) h.rCnt h.vCnt]
  by_cases hlt : c ≤ n
  · rw [if_pos hlt]
    have e : segAsks ptrSize n c = [] := by
      unfold segAsks
      rw [Nat.sub_eq_zero_of_le (bits_mono hlt)]; rfl
    rw [e] at hg ⊢
    cases ms with
    | cons => exact hg.elim
    | nil =>
    refine ⟨w, ?_, ?_⟩
    · simp only [List.nil_append, regs, List.zipWith_nil_left, List.map_nil, List.append_nil]; rfl
    · rw [Nat.max_eq_left hlt]
      exact ⟨by simpa [regs] using h, hw, rfl, fun _ _ => rfl⟩
  · rw [if_neg hlt, Nat.max_eq_right (by omega)]
    have h1 := h.count hc
    obtain ⟨w', e, g⟩ := hW _ h1 (ok_set hw _ _ _) hg
    rw [bits_add (by omega)] at g
    refine ⟨w', ?_, g.count h.off⟩
    rw [set_step (p := t + arrCnt) h.rCnt]
    refine (bind_step e).trans ?_
    rfl

/-! ### ref, get, set, insert -/

theorem or_log_lt {pos b : Nat} (hp : pos < 2 ^ b) (hb : 6 ≤ b) : (pos ||| 1).log2 < b :=
  (Nat.log2_lt (or_one_ne _)).2 (Nat.or_lt_two_pow hp (Nat.one_lt_two_pow (by omega)))

/-- The results of a function which does not change the memory. -/
theorem run_array_ref (s : CTy) {ms : List (Nat × (Nat → Nat))} {log : List BEvent} {pos : Nat} (h : SegR w t arrMax ptrSize n b m R)
    (hw : Ok w) (hb : n ≤ 2 ^ b) (hp : pos < n) :
    run ext "tommy_array_ref" [⟨.ptr s, t⟩, ⟨.usize, pos⟩] ⟨w, ms, log⟩ = some (⟨.ptr (.ptr .void), eaddr R ptrSize pos⟩, ⟨w, ms, log⟩) := by
  have h2 : 2 ^ b < 2 ^ sizeBit := pow_lt_pow' h.blt
  have hp2 : pos < 2 ^ b := by omega
  have hl := or_log_lt hp2 h.b6
  rw [run_fun rfl (show funs _ = some f_tommy_array_ref from rfl)]
  unfold f_tommy_array_ref
  simp only [Stmt.list]
  csimp [name_ilog2 _ (show ("bsr" == "tommy_ilog2_u32" || "bsr" == "tommy_ilog2_u64") = false from rfl),
    name_ilog2 _ (show ("array" == "tommy_ilog2_u32" || "array" == "tommy_ilog2_u64") = false from rfl),
    name_ilog2 _ (show ("pos" == "tommy_ilog2_u32" || "pos" == "tommy_ilog2_u64") = false from rfl), arr_assert,
    run_ilog2 ext (or_one_lt (show pos < 2 ^ sizeBit by omega)) (or_one_ne _)]
  rw [get_step (p := t + arrCnt) h.rCnt h.vCnt]
  csimp [hp]
  rw [if_pos (Nat.lt_trans hl h.blt), get_step (h.rBkt (Nat.lt_trans hl h.blt)) (h.bkt _ hl), log2_or]
  have e : padd (subT (base R (segIx pos)) (ptrSize * segStart (segIx pos))) pos = eaddr R ptrSize pos := h.addr hw hp2
  rw [e]
  rfl

theorem SegR.inElem (h : SegR w t o es n b m R) {pos : Nat} (hp : pos < 2 ^ b) : InReg w (eaddr R es pos) es := by
  obtain ⟨r, hr, _, h1, h2⟩ := h.elem hp
  exact ⟨r.1, r.2, h.live r hr, h1, h2⟩

theorem run_array_get (s : CTy) {ms : List (Nat × (Nat → Nat))} {log : List BEvent} {pos : Nat} (h : SegR w t arrMax ptrSize n b m R)
    (hw : Ok w) (hb : n ≤ 2 ^ b) (hp : pos < n) :
    run ext "tommy_array_get" [⟨.ptr s, t⟩, ⟨.usize, pos⟩] ⟨w, ms, log⟩ =
      some (⟨.ptr .void, rdN w.byte (eaddr R ptrSize pos) ptrSize⟩, ⟨w, ms, log⟩) := by
  have e := run_array_ref ext (.struct "tommy_array_struct") (ms := ms) (log := log) h hw hb hp
  rw [run_fun rfl (show funs _ = some f_tommy_array_get from rfl)]
  unfold f_tommy_array_get
  simp only [Stmt.list]
  csimp
  rw [bind_step e]
  csimp
  rw [get_step (h.inElem (by omega)) rfl]
  rfl

theorem run_array_set (s s' : CTy) {ms : List (Nat × (Nat → Nat))} {log : List BEvent} {pos d : Nat} (h : SegR w t arrMax ptrSize n b m R)
    (hw : Ok w) (hb : n ≤ 2 ^ b) (hp : pos < n) :
    run ext "tommy_array_set" [⟨.ptr s, t⟩, ⟨.usize, pos⟩, ⟨.ptr s', d⟩] ⟨w, ms, log⟩ =
      some (⟨.void, 0⟩, ⟨setW w (eaddr R ptrSize pos) ptrSize d, ms, log⟩) := by
  have e := run_array_ref ext (.struct "tommy_array_struct") (ms := ms) (log := log) h hw hb hp
  rw [run_fun rfl (show funs _ = some f_tommy_array_set from rfl)]
  unfold f_tommy_array_set
  simp only [Stmt.list]
  csimp
  rw [bind_step e]
  csimp
  rw [set_step (h.inElem (by omega))]
  rfl

/-- Writes an element in use. -/
theorem SegR.write (h : SegR w t o es n b m R) (hw : Ok w) {pos d : Nat} (hp : pos < m) (hb : pos < 2 ^ b) : SegR (setW w (eaddr R es pos) es d) t o es n b m R := by
  obtain ⟨r, hr, _, h1, h2⟩ := h.elem hb
  have h3 := h.sep r hr
  refine h.congr (h.str.setL rfl) h.live fun x hx => set_out ?_
  rcases hx with hx | ⟨q, h4, h5, h6, h7⟩
  · omega
  · have := h.apart hw hb h5 (by omega)
    omega

theorem run_array_insert (s s' : CTy) {ms rest : List (Nat × (Nat → Nat))} {log : List BEvent} {d : Nat} (h : SegR w t arrMax ptrSize n (bits n) n R)
    (hw : Ok w) (hc : n + 1 < 2 ^ sizeBit) (hg : Given w.live (segAsks ptrSize n (n + 1)) ms) :
    ∃ w', run ext "tommy_array_insert" [⟨.ptr s, t⟩, ⟨.ptr s', d⟩] ⟨w, ms ++ rest, log⟩ =
      some (⟨.void, 0⟩, ⟨setW w' (eaddr (R ++ regs (segAsks ptrSize n (n + 1)) ms) ptrSize n) ptrSize d, rest,
        log ++ (regs (segAsks ptrSize n (n + 1)) ms).map fun x => BEvent.got x.1 x.2⟩) ∧
      Grown w t arrMax ptrSize (n + 1) (bits (n + 1)) n R (regs (segAsks ptrSize n (n + 1)) ms) w' := by
  obtain ⟨w', e, g⟩ := run_array_grow ext (.struct "tommy_array_struct") (rest := rest) (log := log) h hw hc hg
  rw [Nat.max_eq_right (by omega)] at g
  refine ⟨w', ?_, g⟩
  rw [run_fun rfl (show funs _ = some f_tommy_array_insert from rfl)]
  unfold f_tommy_array_insert
  simp only [Stmt.list]
  csimp
  rw [get_step (p := t + arrCnt) h.rCnt h.vCnt, show Tommy.sizeT (n + 1) = n + 1 from Nat.mod_eq_of_lt hc]
  rw [bind_step e, bind_step (run_array_set ext _ _ g.seg g.ok (le_bits _) (by omega))]
  rfl

theorem run_array_size (s : CTy) {ms : List (Nat × (Nat → Nat))} {log : List BEvent} (h : SegR w t arrMax ptrSize n b m R) :
    run ext "tommy_array_size" [⟨.ptr s, t⟩] ⟨w, ms, log⟩ = some (⟨.usize, n⟩, ⟨w, ms, log⟩) := by
  rw [run_fun rfl (show funs _ = some f_tommy_array_size from rfl)]
  unfold f_tommy_array_size
  simp only [Stmt.list]
  csimp
  rw [get_step (p := t + arrCnt) h.rCnt h.vCnt]
  rfl

theorem run_array_usage (s : CTy) {ms : List (Nat × (Nat → Nat))} {log : List BEvent} (h : SegR w t arrMax ptrSize n b m R) (hw : Ok w) :
    run ext "tommy_array_memory_usage" [⟨.ptr s, t⟩] ⟨w, ms, log⟩ = some (⟨.usize, (R.map Prod.snd).sum⟩, ⟨w, ms, log⟩) := by
  have hs := sum_lt hw R h.nodup h.live
  rw [h.sum] at hs ⊢
  rw [run_fun rfl (show funs _ = some f_tommy_array_memory_usage from rfl)]
  unfold f_tommy_array_memory_usage
  simp only [Stmt.list]
  csimp
  rw [get_step h.rMax h.max, show Tommy.sizeT (2 ^ b * ptrSize) = 2 ^ b * ptrSize from Nat.mod_eq_of_lt hs]
  rfl

/-! ### init -/

/-- `p` written in `k` buckets from `i`. -/
def fillW (w : AMem) (t p i : Nat) : Nat → AMem
  | 0 => w
  | k + 1 => fillW (setW w (t + ptrSize * i) ptrSize p) t p (i + 1) k

theorem fill_live (t p : Nat) : ∀ (k i : Nat) (w : AMem), (fillW w t p i k).live = w.live := by
  intro k
  induction k with
  | zero => intro i w; rfl
  | succ k ih => intro i w; exact ih _ _

theorem fill_ok (t p : Nat) : ∀ (k i : Nat) (w : AMem), Ok w → Ok (fillW w t p i k) := by
  intro k
  induction k with
  | zero => intro i w h; exact h
  | succ k ih => intro i w h; exact ih _ _ (ok_set h _ _ _)

theorem fill_out (t p : Nat) : ∀ (k i : Nat) (w : AMem) (x : Nat), x < t + ptrSize * i ∨ t + ptrSize * (i + k) ≤ x → (fillW w t p i k).byte x = w.byte x := by
  intro k
  induction k with
  | zero => intro i w x _; rfl
  | succ k ih =>
    intro i w x h
    have h1 : ptrSize * (i + (k + 1)) = ptrSize * i + ptrSize + ptrSize * k := by rw [Nat.mul_add, Nat.mul_succ]; omega
    have h2 : ptrSize * (i + 1 + k) = ptrSize * i + ptrSize + ptrSize * k := by rw [Nat.mul_add, Nat.mul_succ]
    have h3 : ptrSize * (i + 1) = ptrSize * i + ptrSize := Nat.mul_succ _ _
    show (fillW _ t p (i + 1) k).byte x = _
    rw [ih _ _ _ (by omega), set_out (by omega)]

theorem fill_in (t p : Nat) (hp : p < 2 ^ sizeBit) : ∀ (k i : Nat) (w : AMem) (j : Nat), i ≤ j → j < i + k →
    rdN (fillW w t p i k).byte (t + ptrSize * j) ptrSize = p := by
  intro k
  induction k with
  | zero => intro i w j _ _; omega
  | succ k ih =>
    intro i w j h1 h2
    show rdN (fillW _ t p (i + 1) k).byte _ _ = _
    by_cases h : j = i
    · subst h
      rw [rdN_congr fun x h1 h2 => fill_out t p k (j + 1) _ x (by rw [Nat.mul_succ]; omega)]
      exact rd_set (by rw [C.eight_ptr]; exact hp)
    · exact ih _ _ j (by omega) (by omega)

/-- The memory after init. -/
def initW (w : AMem) (t o es p : Nat) : AMem :=
  setW (fillW (setW (calW (setW (setW w (t + (o + 2 * ptrSize)) 4 6) (t + o) ptrSize 64) p (64 * es)) t ptrSize p) t p 1 5) (t + (o + ptrSize)) ptrSize 0

/-- The byte `x` is not in the struct, or in the part which grow does not write. -/
def OutS (t o : Nat) (x : Nat) : Prop := x < t ∨ (t + ptrSize * sizeBit ≤ x ∧ x < t + o) ∨ t + strB o ≤ x

theorem six_lt : ptrSize * 6 ≤ ptrSize * sizeBit := Nat.mul_le_mul_left _ (by arch)

theorem init_spec (hs : InReg w t (strB o)) (hw : Ok w) (ho : ptrSize * sizeBit ≤ o) (he : 0 < es) {p : Nat} (hf : Fresh w.live p (64 * es)) :
    SegR (initW w t o es p) t o es 0 6 0 [(p, 64 * es)] ∧ Ok (initW w t o es p) ∧ (initW w t o es p).live = upd w.live p (some (64 * es)) ∧
    ∀ x, Outs t o [(p, 64 * es)] x → (initW w t o es p).byte x = w.byte x := by
  have hB : strB o = o + 2 * ptrSize + 4 := rfl
  have h4 := p4
  have h6 := six_lt
  have hstr : t + strB o ≤ p ∨ p + 64 * es ≤ t := hs.fresh hf
  have hlt : p < 2 ^ sizeBit := by have := hf.lt; omega
  have hlive : (initW w t o es p).live = upd w.live p (some (64 * es)) := by
    unfold initW
    rw [set_live, fill_live, set_live]; rfl
  have hfo : ∀ (v : AMem) q k, q + k ≤ t + ptrSize ∨ t + ptrSize * 6 ≤ q → rdN (fillW v t p 1 5).byte q k = rdN v.byte q k := fun v q k h =>
    rdN_congr fun x h1 h2 => fill_out t p 5 1 v x (by rw [Nat.mul_one]; omega)
  refine ⟨⟨by decide, by arch, ho, he, rfl, ?_, ?_, ?_, ?_, ?_, ?_, ?_, by simp, ?_, ?_⟩, ?_, hlive, ?_⟩
  · obtain ⟨c, k, h1, h2, h3⟩ := hs
    refine ⟨c, k, ?_, h2, h3⟩
    rw [hlive, upd_ne]
    · exact h1
    · rintro rfl; rw [hf.none] at h1; cases h1
  · unfold initW
    rw [rd_set_out (by omega), hfo _ _ _ (by omega), rd_set_out (by omega), rd_cal_out (by omega), rd_set (by rw [C.eight_ptr]; exact pow_lt_pow' (show 6 < sizeBit by arch))]; rfl
  · rw [Nat.add_assoc]; exact rd_set (Nat.two_pow_pos _)
  · unfold initW
    rw [rd_set_out (by omega), hfo _ _ _ (by omega), rd_set_out (by omega), rd_cal_out (by omega), rd_set_out (by omega), Nat.add_assoc t, rd_set (by decide)]
  · intro i hi
    have e : subT (base [(p, 64 * es)] (i - 5)) (es * segStart (i - 5)) = p := by
      rw [show i - 5 = 0 by omega]
      show (p + 2 ^ sizeBit - es * 0) % 2 ^ sizeBit = p
      rw [Nat.mul_zero, Nat.sub_zero, Nat.add_mod_right, Nat.mod_eq_of_lt hlt]
    have h7 : ptrSize * i + ptrSize ≤ ptrSize * 6 := by rw [← Nat.mul_succ]; exact Nat.mul_le_mul_left _ hi
    rw [e]
    unfold initW
    rw [rd_set_out (by omega)]
    by_cases h0 : i = 0
    · subst h0
      rw [hfo _ _ _ (by omega), Nat.mul_zero, Nat.add_zero, rd_set (by rw [C.eight_ptr]; exact hlt)]
    · exact fill_in t p hlt 5 1 _ i (by omega) (by omega)
  · intro j hj
    rw [show j = 0 by omega]; rfl
  · intro r hr
    rw [List.mem_singleton] at hr
    subst hr
    rw [hlive, upd_same]
  · intro r hr
    rw [List.mem_singleton] at hr
    subst hr
    exact hstr
  · intro pos _ h2 x h3 h5
    have h7 : segIx pos = 0 := by have := segIx_lt h2 (Nat.le_refl _); omega
    have h8 := seg_bounds pos
    have e : eaddr [(p, 64 * es)] es pos = p + es * pos := by
      unfold eaddr
      rw [h7]; rfl
    rw [e] at h3 h5
    have h9 : es * pos + es ≤ 64 * es := by
      rw [← Nat.mul_succ, Nat.mul_comm]
      exact Nat.mul_le_mul_right _ h2
    unfold initW
    rw [set_out (by omega), fill_out t p 5 1 _ _ (by rw [Nat.mul_one]; omega), set_out (by omega), cal_in (by omega) (by omega)]
  · exact ok_set (fill_ok _ _ _ _ _ (ok_set (ok_cal (ok_set (ok_set hw _ _ _) _ _ _) hf) _ _ _)) _ _ _
  · intro x ⟨h1, h2⟩
    have h2 := h2 _ (List.mem_singleton_self _)
    dsimp only at h2
    unfold initW
    rw [set_out (by omega), fill_out t p 5 1 _ _ (by rw [Nat.mul_one]; omega), set_out (by omega), cal_out h2, set_out (by omega), set_out (by omega)]

/-- tommyarray.c:40-42 -/
def arrInit : Stmt := .while (.bin .lt (.var "i") (.num 6))
  (.seq (.expr (.assign (.index (.arrow (.var "array") "bucket") (.var "i")) (.index (.arrow (.var "array") "bucket") (.num 0))))
    (.expr (.assignOp .add (.var "i") (.num 1))))

theorem lt_sizeBit {i : Nat} (h : i < 7) : i < sizeBit := by arch

theorem exec_arrInit {p : Nat} {ms : List (Nat × (Nat → Nat))} {log : List BEvent} (k : Nat) : ∀ {w : AMem} {i : Nat}, i + k = 6 → 0 < i →
    InReg w t (ptrSize * sizeBit) → rdN w.byte t ptrSize = p →
    exec structs ext (run ext) arrInit [("i", .u32, [some i]), ("array", tArr, [some t])] ⟨w, ms, log⟩ =
      some ((.normal, [("i", .u32, [some 6]), ("array", tArr, [some t])]), ⟨fillW w t p i k, ms, log⟩) := by
  obtain ⟨W, hW⟩ : ∃ W, W = arrInit := ⟨_, rfl⟩
  rw [← hW]
  unfold arrInit at hW
  induction k with
  | zero =>
    intro w i hi h0 hs hp
    have : i = 6 := by omega
    subst this
    rw [exec_while ext _ hW]
    csimp
    rfl
  | succ k ih =>
    intro w i hi h0 hs hp
    have h1 : (i + 1) % 4294967296 = i + 1 := Nat.mod_eq_of_lt (by omega)
    have hin := bktIn (lt_sizeBit (i := i) (by omega))
    have h2 : ptrSize ≤ ptrSize * i := Nat.le_mul_of_pos_right _ h0
    rw [exec_while ext _ hW]
    csimp [h1, show i < 6 by omega]
    rw [get_step (p := t) (by sub hs) hp, if_pos (lt_sizeBit (by omega)), set_step (by sub hs)]
    exact ih (by omega) (by omega) (hs.setL rfl) (by rw [rd_set_out (by omega)]; exact hp)

theorem run_array_init (s : CTy) {mm : Nat × (Nat → Nat)} {rest : List (Nat × (Nat → Nat))} {log : List BEvent} (hs : InReg w t (strB arrMax))
    (hf : Fresh w.live mm.1 (64 * ptrSize)) :
    run ext "tommy_array_init" [⟨.ptr s, t⟩] ⟨w, mm :: rest, log⟩ =
      some (⟨.void, 0⟩, ⟨initW w t arrMax ptrSize mm.1, rest, log ++ [.got mm.1 (64 * ptrSize)]⟩) := by
  have hB : strB arrMax = arrMax + 2 * ptrSize + 4 := rfl
  have hA : arrMax = ptrSize * sizeBit := rfl
  have h6 := six_lt
  have hlt := hs.fresh hf
  rw [run_fun rfl (show funs _ = some f_tommy_array_init from rfl)]
  unfold f_tommy_array_init
  have hl := fun (w : AMem) p log => exec_arrInit ext (w := w) (i := 1) (p := p) (ms := rest) (log := log) (t := t) 5 rfl (by decide)
  generalize hG : Stmt.for _ _ _ _ = G
  simp only [Stmt.list]
  csimp
  have h5 := lt_sizeBit (i := 6) (by decide)
  rw [set32_step (by sub hs), get32_step (v := 6) (by sub hs) (rd_set (by decide)), shl_step h5, show 2 ^ 6 = 64 from rfl, set_step (by sub hs),
    get_step (v := 64) (by sub hs) (rd_set (by rw [C.eight_ptr]; exact pow_lt_pow' h5)), calloc_step]
  have hs' : InReg (calW (setW (setW w (t + arrBit) 4 6) (t + arrMax) ptrSize 64) mm.1 (64 * ptrSize)) t (strB arrMax) := by
    refine InReg.cal ?_ (InReg.setL rfl (InReg.setL rfl hs))
    exact hf
  rw [set_step (p := t) (by sub hs')]
  rw [← hG, exec_for]
  unfold arrInit at hl
  generalize Stmt.while _ _ = W at hl ⊢
  csimp
  refine (bind_step (hl _ mm.1 _ ?_ ?_)).trans ?_
  · sub (InReg.setL (w := calW (setW (setW w (t + arrBit) 4 6) (t + arrMax) ptrSize 64) mm.1 (64 * ptrSize)) rfl hs')
  · exact rd_set (by rw [C.eight_ptr]; have := hf.lt; omega)
  · csimp
    rw [set_step]
    · rfl
    · have := InReg.setL (w' := fillW (setW (calW (setW (setW w (t + arrBit) 4 6) (t + arrMax) ptrSize 64) mm.1 (64 * ptrSize)) t ptrSize mm.1) t mm.1 1 5) (by rw [fill_live]; rfl) hs'
      sub this

/-! ### done -/

/-- The regions `L` deallocated. -/
def freeW (w : AMem) (L : List (Nat × Nat)) : AMem := { w with live := fun x => if x ∈ L.map Prod.fst then none else w.live x }

theorem freeW_nil (w : AMem) : freeW w [] = w := by
  unfold freeW
  simp

theorem freeW_app (w : AMem) (L : List (Nat × Nat)) (r : Nat × Nat) : ({ freeW w L with live := upd (freeW w L).live r.1 none } : AMem) = freeW w (L ++ [r]) := by
  unfold freeW
  show AMem.mk _ _ = AMem.mk _ _
  congr 1
  funext x
  unfold upd
  dsimp only
  by_cases h : x = r.1
  · simp [h]
  · rw [if_neg h, List.map_append, List.map_cons, List.map_nil]
    simp only [List.mem_append, List.mem_singleton, h, or_false]

/-- A region which is not one of the others. -/
theorem _root_.Tommy.CArraySpec.InReg.free {p k : Nat} {L : List (Nat × Nat)} (h : InReg w p k) (hk : 0 < k) (hl : ∀ r ∈ L, w.live r.1 = some r.2)
    (hd : ∀ r ∈ L, p + k ≤ r.1 ∨ r.1 + r.2 ≤ p) : InReg (freeW w L) p k := by
  obtain ⟨c, q, h1, h2, h3⟩ := h
  refine ⟨c, q, ?_, h2, h3⟩
  show (if _ then _ else _) = _
  rw [if_neg]
  · exact h1
  · rw [List.mem_map]
    rintro ⟨r, hr, rfl⟩
    have := hl r hr
    rw [h1] at this
    cases this
    have := hd r hr
    omega

theorem freeW_live {L : List (Nat × Nat)} {r : Nat × Nat} (h : w.live r.1 = some r.2) (hn : r.1 ∉ L.map Prod.fst) : (freeW w L).live r.1 = some r.2 := by
  show (if _ then _ else _) = _
  rw [if_neg hn]; exact h

theorem SegR.take (h : SegR w t o es n b m R) {j : Nat} (hj : j < b - 5) : R.take (j + 1) = R.take j ++ [R.getD j (0, 0)] ∧
    (R.getD j (0, 0)).1 ∉ (R.take j).map Prod.fst := by
  have hl : j < R.length := by rw [h.len]; exact hj
  refine ⟨?_, ?_⟩
  · rw [List.take_succ_eq_append_getElem hl, List.getD_eq_getElem _ _ hl]
  · rw [List.mem_map]
    rintro ⟨r, hr, e⟩
    obtain ⟨i, hi, e'⟩ := List.mem_take_iff_getElem.1 hr
    have hi' : i < j := by omega
    have := getD_inj h.nodup (i := i) (j := j) (by omega) hl (by rw [← e, List.getD_eq_getElem _ _ (by omega), e'])
    omega

theorem SegR.freeStr (h : SegR w t o es n b m R) (j : Nat) : InReg (freeW w (R.take j)) t (strB o) :=
  h.str.free (by unfold strB; omega) (fun r hr => h.live r (List.mem_of_mem_take hr)) fun r hr => h.sep r (List.mem_of_mem_take hr)

/-- The loop of done. -/
theorem done_loop {γ : Type} (X : Nat → BM γ) (r : γ) {rest : List (Nat × (Nat → Nat))} (h : SegR w t o es n b m R)
    (stop : ∀ {log}, X b ⟨freeW w (R.take (b - 5)), rest, log⟩ = some (r, ⟨freeW w (R.take (b - 5)), rest, log⟩))
    (turn : ∀ {i log}, 6 ≤ i → i < b → (freeW w (R.take (i - 5))).live (base R (i - 5)) = some (R.getD (i - 5) (0, 0)).2 →
      X i ⟨freeW w (R.take (i - 5)), rest, log⟩ =
        X (i + 1) ⟨{ freeW w (R.take (i - 5)) with live := upd (freeW w (R.take (i - 5))).live (base R (i - 5)) none }, rest, log ++ [.gave (base R (i - 5))]⟩)
    (k : Nat) : ∀ {i log}, 6 ≤ i → i + k = b → X i ⟨freeW w (R.take (i - 5)), rest, log⟩ =
      some (r, ⟨freeW w R, rest, log ++ (R.drop (i - 5)).map fun x => BEvent.gave x.1⟩) := by
  induction k with
  | zero =>
    intro i log hi hk
    have : i = b := hk
    subst this
    rw [stop, ← h.len, List.take_length, List.drop_length]
    simp
  | succ k ih =>
    intro i log hi hk
    obtain ⟨h1, h2⟩ := h.take (j := i - 5) (by omega)
    have hl : i - 5 < R.length := by rw [h.len]; omega
    have e := freeW_app w (R.take (i - 5)) (R.getD (i - 5) (0, 0))
    rw [← h1, show i - 5 + 1 = i + 1 - 5 by omega] at e
    rw [turn hi (by omega) (freeW_live (h.live _ (getD_mem hl)) h2)]
    unfold base
    rw [e, ih (by omega) (by omega), List.drop_eq_getElem_cons hl, show i - 5 + 1 = i + 1 - 5 by omega, List.getD_eq_getElem _ _ hl]
    simp

theorem SegR.segAddr (h : SegR w t o es n b m R) (hw : Ok w) {i : Nat} (hi : 6 ≤ i) (hb : i < b) :
    (subT (base R (i - 5)) (es * segStart (i - 5)) + es * 2 ^ i) % 2 ^ sizeBit = base R (i - 5) := by
  have h1 : segStart (i - 5) = 2 ^ i := (segSize_new hi).2
  have h2 := hw.pos _ _ (h.live _ (getD_mem (R := R) (j := i - 5) (by rw [h.len]; omega)))
  have h3 := h.reg (i - 5) (by omega)
  rw [(segSize_new hi).1] at h3
  have h4 : es * 2 ^ i ≤ (R.getD (i - 5) (0, 0)).2 := by rw [h3, Nat.mul_comm]
  unfold subT
  rw [h1, Nat.mod_add_mod]
  have h5 : base R (i - 5) = (R.getD (i - 5) (0, 0)).1 := rfl
  rw [show base R (i - 5) + 2 ^ sizeBit - es * 2 ^ i + es * 2 ^ i = base R (i - 5) + 2 ^ sizeBit by omega, Nat.add_mod_right, Nat.mod_eq_of_lt (by omega)]

theorem SegR.first (h : SegR w t o es n b m R) (hw : Ok w) : rdN w.byte (t + ptrSize * 0) ptrSize = base R 0 ∧ w.live (base R 0) = some (R.getD 0 (0, 0)).2 := by
  have b6 := h.b6
  have h1 := h.live _ (getD_mem (R := R) (j := 0) (by rw [h.len]; omega))
  refine ⟨?_, h1⟩
  rw [h.bkt 0 (by omega)]
  show (base R 0 + 2 ^ sizeBit - es * 0) % 2 ^ sizeBit = _
  rw [Nat.mul_zero, Nat.sub_zero, Nat.add_mod_right, Nat.mod_eq_of_lt]
  have := hw.pos _ _ h1
  unfold base
  omega

/-- tommyarray.c:52-55 -/
def arrDone : Stmt := .while (.bin .lt (.var "i") (.arrow (.var "array") "bucket_bit"))
  (.seq (.block (.list [
      .declInit (.ptr (.ptr .void)) "segment" (.index (.arrow (.var "array") "bucket") (.var "i")),
      .expr (.call "free" (.cons (.addr (.index (.var "segment") (.bin .shl (.cast .ssize (.num 1)) (.var "i")))) .nil))]))
    (.expr (.assignOp .add (.var "i") (.num 1))))

theorem exec_arrDone {rest : List (Nat × (Nat → Nat))} {log : List BEvent} (h : SegR w t arrMax ptrSize n b m R) (hw : Ok w) :
    exec structs ext (run ext) arrDone [("i", .u32, [some 6]), ("array", tArr, [some t])] ⟨freeW w (R.take 1), rest, log⟩ =
      some ((.normal, [("i", .u32, [some b]), ("array", tArr, [some t])]), ⟨freeW w R, rest, log ++ (R.drop 1).map fun x => BEvent.gave x.1⟩) := by
  obtain ⟨W, hW⟩ : ∃ W, W = arrDone := ⟨_, rfl⟩
  rw [← hW]
  unfold arrDone at hW
  have b6 := h.b6
  have blt := h.blt
  refine done_loop (fun i => exec structs ext (run ext) W [("i", .u32, [some i]), ("array", tArr, [some t])]) _ h ?_ ?_ (b - 6) (i := 6) (by decide) (by omega)
  · intro log
    have hs := h.freeStr (b - 5)
    try dsimp only
    rw [exec_while ext _ hW]
    csimp
    rw [get32_step (v := b) (by sub hs) (by exact h.vBit), if_neg (Nat.lt_irrefl _)]
    rfl
  · intro i log h1 h2 hl
    have hs := h.freeStr (i - 5)
    have hin := bktIn (Nat.lt_trans h2 h.blt)
    have hi := inc32 (Nat.lt_trans h2 h.blt)
    have hp : 2 ^ i < 2 ^ (sizeBit - 1) := pow_lt_pow' (by omega)
    try dsimp only
    conv => lhs; rw [exec_while ext _ hW]
    simp only [Stmt.list]
    csimp
    rw [get32_step (v := b) (by sub hs) (by exact h.vBit), if_pos h2, if_pos (Nat.lt_trans h2 h.blt), get_step (by sub hs) (by exact h.bkt i h2), shlS_step (by omega)]
    csimp [hp, hi]
    have e : padd (subT (base R (i - 5)) (ptrSize * segStart (i - 5))) (2 ^ i) = base R (i - 5) := h.segAddr hw h1 h2
    rw [e, free_step hl]

theorem run_array_done (s : CTy) {rest : List (Nat × (Nat → Nat))} {log : List BEvent} (h : SegR w t arrMax ptrSize n b m R) (hw : Ok w) :
    run ext "tommy_array_done" [⟨.ptr s, t⟩] ⟨w, rest, log⟩ = some (⟨.void, 0⟩, ⟨freeW w R, rest, log ++ R.map fun x => BEvent.gave x.1⟩) := by
  have b6 := h.b6
  have hR : R = R.take 1 ++ R.drop 1 := (List.take_append_drop ..).symm
  have hl : 0 < R.length := by rw [h.len]; omega
  have h1 : R.take 1 = [R.getD 0 (0, 0)] := by
    have := (h.take (j := 0) (by omega)).1
    simpa using this
  rw [run_fun rfl (show funs _ = some f_tommy_array_done from rfl)]
  unfold f_tommy_array_done
  have hd := fun log => exec_arrDone ext (rest := rest) (log := log) h hw
  generalize hG : Stmt.for _ _ _ _ = G
  simp only [Stmt.list]
  csimp
  rw [get_step (p := t) (h.rBkt (i := 0) (lt_sizeBit (by decide))) (h.first hw).1, free_step (h.first hw).2]
  rw [← hG, exec_for]
  unfold arrDone at hd
  generalize Stmt.while _ _ = W at hd ⊢
  csimp
  have e : ({ w with live := upd w.live (base R 0) none } : AMem) = freeW w (R.take 1) := by
    have := freeW_app w [] (R.getD 0 (0, 0))
    rw [freeW_nil] at this
    rw [h1]; exact this
  rw [e]
  refine (bind_step (hd _)).trans ?_
  rw [List.append_assoc]
  have e2 : [BEvent.gave (base R 0)] ++ (R.drop 1).map (fun x => BEvent.gave x.1) = R.map fun x => BEvent.gave x.1 := by
    conv => rhs; rw [hR, h1]
    rfl
  rw [e2]
  rfl

end Tommy.CArr
