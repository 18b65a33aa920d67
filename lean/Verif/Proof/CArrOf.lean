import Verif.Proof.CArrFun
/-! The functions of tommyarrayof. -/
set_option autoImplicit false
set_option linter.unusedSectionVars false
set_option linter.unusedSimpArgs false
namespace Tommy.C
variable [Arch]

theorem conv_usize_ssize {n : Nat} (h : n < 2 ^ sizeBit) : conv .usize ⟨.ssize, n⟩ = ⟨.usize, n⟩ := by
  have hb : CTy.ssize.bits = sizeBit := rfl
  have hu : CTy.usize.bits = sizeBit := rfl
  unfold conv Val.int
  rw [if_neg nofun, if_neg (fun h => nomatch h.2), hu]
  congr 1
  split
  · rw [show ((Val.mk .ssize n).v : Int) - 2 ^ (Val.mk .ssize n).ty.bits = (n : Int) - ((2 ^ sizeBit : Nat) : Int) by rw [Int.natCast_pow]; rfl, Int.sub_emod_right]
    exact (toNat_mod _ _).trans (Nat.mod_eq_of_lt h)
  · exact (toNat_mod _ _).trans (Nat.mod_eq_of_lt h)

theorem mul_ssize_usize {a b : Nat} (h : a < 2 ^ sizeBit) : binop .mul ⟨.ssize, a⟩ ⟨.usize, b⟩ = some ⟨.usize, Tommy.sizeT (a * b)⟩ := by
  bin [conv_usize_ssize h, toNat_mul_mod]; rfl

/-- `-n` of an unsigned, and `&p[-n]` of bytes. -/
theorem neg_usize (p : Nat) {n : Nat} (h : n < 2 ^ sizeBit) : ∃ x, result (promote CTy.usize) (-(n : Int)) = some x ∧ elemAddr p 1 x = subT p n := by
  refine ⟨⟨.usize, ((-(n : Int)) % (2 ^ sizeBit : Nat)).toNat⟩, rfl, ?_⟩
  unfold elemAddr subT
  rw [int_usize]
  show (((p : Int) + (1 : Nat) * ((((-(n : Int)) % ((2 ^ sizeBit : Nat) : Int)).toNat : Nat) : Int)) % _).toNat = _
  have h1 := pow_pos'
  generalize 2 ^ sizeBit = B at *
  rw [Int.toNat_of_nonneg (Int.emod_nonneg _ (by omega)), Int.natCast_one, Int.one_mul, Int.add_emod_emod]
  rw [show (p : Int) + -(n : Int) = ((p + B - n : Nat) : Int) - (B : Int) by omega, Int.sub_emod_right, toNat_mod]

@[csem] theorem elem_byte (p n : Nat) : elemAddr p 1 ⟨.usize, n⟩ = (p + n) % 2 ^ sizeBit := by
  unfold elemAddr
  rw [int_usize, Int.natCast_one, Int.one_mul, toNat_add_mod]

@[csem] theorem size_byte : size structs .u8 = some 1 := rfl

end Tommy.C

namespace Tommy.CArr
open CArraySpec AllocSpec C C.Src
open HashFlat hiding Fresh
variable [Arch] (ext : Ext)

variable {w : AMem} {t o es n b m : Nat} {R : List (Nat × Nat)}

/-- The size of the elements in the struct. -/
def HasEs (t es : Nat) (w : AMem) : Prop := rdN w.byte (t + ofEs) ptrSize = es

theorem mid_es (t es : Nat) : Mid t ofMax (HasEs t es) := by
  intro w w' h he
  unfold HasEs at *
  rw [← he]
  exact rdN_congr fun x h1 h2 => h x (by offs) (by offs)

/-- tommyarrayof.c:65-76 -/
def ofGrow : Stmt := .while (.bin .gt (.var "count") (.arrow (.var "array") "bucket_max"))
  (.block (.list [
    .decl (.ptr .u8) "segment",
    .expr (.assign (.var "segment") (.call "calloc" (.cons (.arrow (.var "array") "bucket_max") (.cons (.arrow (.var "array") "element_size") .nil)))),
    .expr (.assign (.index (.arrow (.var "array") "bucket") (.arrow (.var "array") "bucket_bit")) (.addr (.index (.var "segment") (.neg (.bin .mul (.cast .ssize (.arrow (.var "array") "bucket_max")) (.arrow (.var "array") "element_size")))))),
    .expr (.assignOp .add (.arrow (.var "array") "bucket_bit") (.num 1)),
    .expr (.assign (.arrow (.var "array") "bucket_max") (.bin .shl (.cast .usize (.num 1)) (.arrow (.var "array") "bucket_bit")))]))

theorem exec_ofGrow {ms rest : List (Nat × (Nat → Nat))} {log : List BEvent} {c : Nat} (h : SegR w t ofMax es c b m R) (hw : Ok w) (he : HasEs t es w)
    (hg : Given w.live ((List.range' b (bits c - b)).map fun k => 2 ^ k * es) ms) :
    ∃ w', exec structs ext (run ext) ofGrow [("array", tOf, [some t]), ("count", .usize, [some c])] ⟨w, ms ++ rest, log⟩ =
      some ((.normal, [("array", tOf, [some t]), ("count", .usize, [some c])]),
        ⟨w', rest, log ++ (regs ((List.range' b (bits c - b)).map fun k => 2 ^ k * es) ms).map fun x => BEvent.got x.1 x.2⟩) ∧
      Grown w t ofMax es c (b + (bits c - b)) m R (regs ((List.range' b (bits c - b)).map fun k => 2 ^ k * es) ms) w' := by
  obtain ⟨W, hW⟩ : ∃ W, W = ofGrow := ⟨_, rfl⟩
  rw [← hW]
  unfold ofGrow at hW
  refine grow_loop (P := HasEs t es) _ _ (mid_es t es) rest ?_ ?_ _ h hw he rfl hg
  · intro w b R ms log h _ hc
    rw [exec_while ext _ hW]
    csimp
    rw [get_step h.rMax h.max, if_neg (Nat.not_lt.2 hc)]
    rfl
  · intro w b R mm ms log h hw he hc hb hf
    have hlt' : 2 ^ b * es < 2 ^ sizeBit := by have := hf.lt; omega
    obtain ⟨x, e1, e2⟩ := neg_usize mm.1 (n := 2 ^ b * es) hlt'
    rw [show subT mm.1 (2 ^ b * es) = subT mm.1 (es * 2 ^ b) by rw [Nat.mul_comm]] at e2
    conv => lhs; rw [exec_while ext _ hW]
    simp only [Stmt.list]
    csimp
    have hs0 := h.str
    have hs := h.str.cal hf
    have hB : strB ofMax = ofMax + 2 * ptrSize + 4 := rfl
    have hlt := h.str.fresh hf
    have ho := h.off
    have hin := bktIn h.blt
    rw [get_step h.rMax h.max, if_pos (Nat.lt_of_not_le hc), get_step h.rMax h.max, get_step (v := es) (by sub hs0) he, calloc_step,
      get_step (v := 2 ^ b) (hs.sub (by omega) (by omega)) (by rw [rd_cal_out (by omega)]; exact h.max),
      get_step (v := es) (by sub hs) (by rw [rd_cal_out (by offs)]; exact he),
      conv_ssize_usize (pow_lt_pow' h.blt), mul_ssize_usize (pow_lt_pow' h.blt), show Tommy.sizeT (2 ^ b * es) = 2 ^ b * es from Nat.mod_eq_of_lt hlt']
    csimp
    rw [e1]
    csimp
    rw [get32_step (v := b) (by sub hs) (by rw [rd_cal_out (by offs)]; exact h.vBit), if_pos h.blt, e2, set_step (by sub hs),
      get32_step (v := b) (by sub hs) (by rw [rd_set_out (by offs), rd_cal_out (by offs)]; exact h.vBit), inc32 h.blt, set32_step (by sub hs),
      get32_step (v := b + 1) (by sub hs) (rd_set (by have := sizeBit_lt; omega)), shl_step hb, set_step (by sub hs)]
    rfl

theorem run_arrayof_grow (s : CTy) {ms rest : List (Nat × (Nat → Nat))} {log : List BEvent} {c : Nat} (h : SegR w t ofMax es n (bits n) m R) (he : HasEs t es w)
    (hw : Ok w) (hc : c < 2 ^ sizeBit) (hg : Given w.live (segAsks es n c) ms) :
    ∃ w', run ext "tommy_arrayof_grow" [⟨.ptr s, t⟩, ⟨.usize, c⟩] ⟨w, ms ++ rest, log⟩ =
      some (⟨.void, 0⟩, ⟨w', rest, log ++ (regs (segAsks es n c) ms).map fun x => BEvent.got x.1 x.2⟩) ∧
      Grown w t ofMax es (max n c) (bits (max n c)) m R (regs (segAsks es n c) ms) w' := by
  rw [run_fun rfl (show funs _ = some f_tommy_arrayof_grow from rfl)]
  unfold f_tommy_arrayof_grow
  have hW := fun (w' : AMem) h hw he hg => exec_ofGrow ext (w := w') (t := t) (es := es) (b := bits n) (m := m) (R := R) (ms := ms) (rest := rest) (log := log) (c := c) h hw he hg
  unfold ofGrow at hW
  generalize Stmt.while _ _ = W at hW ⊢
  simp only [Stmt.list]
  csimp
  rw [get_step (p := t + ofCnt) h.rCnt h.vCnt]
  by_cases hlt : c ≤ n
  · rw [if_pos hlt]
    have e : segAsks es n c = [] := by
      unfold segAsks
      rw [Nat.sub_eq_zero_of_le (bits_mono hlt)]; rfl
    rw [e] at hg ⊢
    cases ms with
    | cons => exact hg.elim
    | nil =>
    refine ⟨w, ?_, ?_⟩
    · simp only [List.nil_append, regs, List.zipWith_nil_left, List.map_nil, List.append_nil]; rfl
    · rw [Nat.max_eq_left hlt]
      exact ⟨by simpa [regs] using h, hw, rfl, fun _ _ => rfl⟩
  · rw [if_neg hlt, Nat.max_eq_right (by omega)]
    have h1 := h.count hc
    obtain ⟨w', e, g⟩ := hW _ h1 (ok_set hw _ _ _) (by
      unfold HasEs
      rw [rd_set_out (by offs)]; exact he) hg
    rw [bits_add (by omega)] at g
    refine ⟨w', ?_, g.count h.off⟩
    rw [set_step (p := t + ofCnt) h.rCnt]
    refine (bind_step e).trans ?_
    rfl

theorem run_arrayof_ref (s : CTy) {ms : List (Nat × (Nat → Nat))} {log : List BEvent} {pos : Nat} (h : SegR w t ofMax es n b m R) (he : HasEs t es w)
    (hw : Ok w) (hb : n ≤ 2 ^ b) (hp : pos < n) :
    run ext "tommy_arrayof_ref" [⟨.ptr s, t⟩, ⟨.usize, pos⟩] ⟨w, ms, log⟩ = some (⟨.ptr .void, eaddr R es pos⟩, ⟨w, ms, log⟩) := by
  have h2 : 2 ^ b < 2 ^ sizeBit := pow_lt_pow' h.blt
  have hp2 : pos < 2 ^ b := by omega
  have hl := or_log_lt hp2 h.b6
  have hs := h.str
  rw [run_fun rfl (show funs _ = some f_tommy_arrayof_ref from rfl)]
  unfold f_tommy_arrayof_ref
  simp only [Stmt.list]
  csimp [name_ilog2 _ (show ("bsr" == "tommy_ilog2_u32" || "bsr" == "tommy_ilog2_u64") = false from rfl),
    name_ilog2 _ (show ("array" == "tommy_ilog2_u32" || "array" == "tommy_ilog2_u64") = false from rfl),
    name_ilog2 _ (show ("ptr" == "tommy_ilog2_u32" || "ptr" == "tommy_ilog2_u64") = false from rfl),
    name_ilog2 _ (show ("pos" == "tommy_ilog2_u32" || "pos" == "tommy_ilog2_u64") = false from rfl), arr_assert,
    run_ilog2 ext (or_one_lt (show pos < 2 ^ sizeBit by omega)) (or_one_ne _)]
  rw [get_step (p := t + ofCnt) h.rCnt h.vCnt]
  csimp [hp]
  rw [if_pos (Nat.lt_trans hl h.blt), get_step (h.rBkt (Nat.lt_trans hl h.blt)) (h.bkt _ hl), get_step (v := es) (by sub hs) he, log2_or]
  have e : (subT (base R (segIx pos)) (es * segStart (segIx pos)) + Tommy.sizeT (pos * es)) % 2 ^ sizeBit = eaddr R es pos := by
    unfold Tommy.sizeT
    rw [Nat.add_mod_mod, Nat.mul_comm pos es, h.addr hw hp2]
  rw [e]
  rfl

theorem run_arrayof_size (s : CTy) {ms : List (Nat × (Nat → Nat))} {log : List BEvent} (h : SegR w t ofMax es n b m R) :
    run ext "tommy_arrayof_size" [⟨.ptr s, t⟩] ⟨w, ms, log⟩ = some (⟨.usize, n⟩, ⟨w, ms, log⟩) := by
  rw [run_fun rfl (show funs _ = some f_tommy_arrayof_size from rfl)]
  unfold f_tommy_arrayof_size
  simp only [Stmt.list]
  csimp
  rw [get_step (p := t + ofCnt) h.rCnt h.vCnt]
  rfl

theorem run_arrayof_usage (s : CTy) {ms : List (Nat × (Nat → Nat))} {log : List BEvent} (h : SegR w t ofMax es n b m R) (he : HasEs t es w) (hw : Ok w) :
    run ext "tommy_arrayof_memory_usage" [⟨.ptr s, t⟩] ⟨w, ms, log⟩ = some (⟨.usize, (R.map Prod.snd).sum⟩, ⟨w, ms, log⟩) := by
  have hs := sum_lt hw R h.nodup h.live
  have hs' := h.str
  rw [h.sum] at hs ⊢
  rw [run_fun rfl (show funs _ = some f_tommy_arrayof_memory_usage from rfl)]
  unfold f_tommy_arrayof_memory_usage
  simp only [Stmt.list]
  csimp
  rw [get_step h.rMax h.max, get_step (v := es) (by sub hs') he, show Tommy.sizeT (2 ^ b * es) = 2 ^ b * es from Nat.mod_eq_of_lt hs]
  rfl

/-! ### init -/

/-- tommyarrayof.c:40-42 -/
def ofInit : Stmt := .while (.bin .lt (.var "i") (.num 6))
  (.seq (.expr (.assign (.index (.arrow (.var "array") "bucket") (.var "i")) (.index (.arrow (.var "array") "bucket") (.num 0))))
    (.expr (.assignOp .add (.var "i") (.num 1))))

theorem exec_ofInit {p es : Nat} {ms : List (Nat × (Nat → Nat))} {log : List BEvent} (k : Nat) : ∀ {w : AMem} {i : Nat}, i + k = 6 → 0 < i →
    InReg w t (ptrSize * sizeBit) → rdN w.byte t ptrSize = p →
    exec structs ext (run ext) ofInit [("i", .u32, [some i]), ("array", tOf, [some t]), ("element_size", .usize, [some es])] ⟨w, ms, log⟩ =
      some ((.normal, [("i", .u32, [some 6]), ("array", tOf, [some t]), ("element_size", .usize, [some es])]), ⟨fillW w t p i k, ms, log⟩) := by
  obtain ⟨W, hW⟩ : ∃ W, W = ofInit := ⟨_, rfl⟩
  rw [← hW]
  unfold ofInit at hW
  induction k with
  | zero =>
    intro w i hi h0 hs hp
    have : i = 6 := by omega
    subst this
    rw [exec_while ext _ hW]
    csimp
    rfl
  | succ k ih =>
    intro w i hi h0 hs hp
    have h1 : (i + 1) % 4294967296 = i + 1 := Nat.mod_eq_of_lt (by omega)
    have hin := bktIn (lt_sizeBit (i := i) (by omega))
    have h2 : ptrSize ≤ ptrSize * i := Nat.le_mul_of_pos_right _ h0
    rw [exec_while ext _ hW]
    csimp [h1, show i < 6 by omega]
    rw [get_step (p := t) (by sub hs) hp, if_pos (lt_sizeBit (by omega)), set_step (by sub hs)]
    exact ih (by omega) (by omega) (hs.setL rfl) (by rw [rd_set_out (by omega)]; exact hp)

theorem run_arrayof_init (s : CTy) {mm : Nat × (Nat → Nat)} {rest : List (Nat × (Nat → Nat))} {log : List BEvent} (hs : InReg w t (strB ofMax))
    (hes : es < 2 ^ sizeBit) (hf : Fresh w.live mm.1 (64 * es)) :
    run ext "tommy_arrayof_init" [⟨.ptr s, t⟩, ⟨.usize, es⟩] ⟨w, mm :: rest, log⟩ =
      some (⟨.void, 0⟩, ⟨initW (setW w (t + ofEs) ptrSize es) t ofMax es mm.1, rest, log ++ [.got mm.1 (64 * es)]⟩) := by
  have hB : strB ofMax = ofMax + 2 * ptrSize + 4 := rfl
  have hA : ofMax = ptrSize * sizeBit + ptrSize := rfl
  have h6 := six_lt
  have hlt := hs.fresh hf
  rw [run_fun rfl (show funs _ = some f_tommy_arrayof_init from rfl)]
  unfold f_tommy_arrayof_init
  have hl := fun (w : AMem) p log => exec_ofInit ext (w := w) (i := 1) (p := p) (es := es) (ms := rest) (log := log) (t := t) 5 rfl (by decide)
  generalize hG : Stmt.for _ _ _ _ = G
  simp only [Stmt.list]
  csimp
  have h5 := lt_sizeBit (i := 6) (by decide)
  have hs0 : InReg (setW w (t + ofEs) ptrSize es) t (strB ofMax) := InReg.setL rfl hs
  rw [set_step (by sub hs), set32_step (by sub hs0), get32_step (v := 6) (by sub hs0) (rd_set (by decide)), shl_step h5, show 2 ^ 6 = 64 from rfl, set_step (by sub hs0),
    get_step (v := 64) (by sub hs0) (rd_set (by rw [C.eight_ptr]; exact pow_lt_pow' h5)),
    get_step (v := es) (by sub hs0) (by rw [rd_set_out (by offs), rd_set_out (by offs)]; exact rd_set (by rw [C.eight_ptr]; exact hes)), calloc_step]
  have hs' : InReg (calW (setW (setW (setW w (t + ofEs) ptrSize es) (t + ofBit) 4 6) (t + ofMax) ptrSize 64) mm.1 (64 * es)) t (strB ofMax) := by
    refine InReg.cal ?_ (InReg.setL rfl (InReg.setL rfl hs0))
    exact hf
  rw [set_step (p := t) (by sub hs')]
  rw [← hG, exec_for]
  unfold ofInit at hl
  generalize Stmt.while _ _ = W at hl ⊢
  csimp
  refine (bind_step (hl _ mm.1 _ ?_ ?_)).trans ?_
  · sub (InReg.setL (w := calW (setW (setW (setW w (t + ofEs) ptrSize es) (t + ofBit) 4 6) (t + ofMax) ptrSize 64) mm.1 (64 * es)) rfl hs')
  · exact rd_set (by rw [C.eight_ptr]; have := hf.lt; omega)
  · csimp
    rw [set_step]
    · rfl
    · have := InReg.setL (w' := fillW (setW (calW (setW (setW (setW w (t + ofEs) ptrSize es) (t + ofBit) 4 6) (t + ofMax) ptrSize 64) mm.1 (64 * es)) t ptrSize mm.1) t mm.1 1 5) (by rw [fill_live]; rfl) hs'
      sub this

/-! ### done -/

/-- tommyarrayof.c:52-55 -/
def ofDone : Stmt := .while (.bin .lt (.var "i") (.arrow (.var "array") "bucket_bit"))
  (.seq (.block (.list [
      .declInit (.ptr .u8) "segment" (.index (.arrow (.var "array") "bucket") (.var "i")),
      .expr (.call "free" (.cons (.addr (.index (.var "segment") (.bin .mul (.bin .shl (.cast .ssize (.num 1)) (.var "i")) (.arrow (.var "array") "element_size")))) .nil))]))
    (.expr (.assignOp .add (.var "i") (.num 1))))

theorem exec_ofDone {rest : List (Nat × (Nat → Nat))} {log : List BEvent} (h : SegR w t ofMax es n b m R) (he : HasEs t es w) (hw : Ok w) :
    exec structs ext (run ext) ofDone [("i", .u32, [some 6]), ("array", tOf, [some t])] ⟨freeW w (R.take 1), rest, log⟩ =
      some ((.normal, [("i", .u32, [some b]), ("array", tOf, [some t])]), ⟨freeW w R, rest, log ++ (R.drop 1).map fun x => BEvent.gave x.1⟩) := by
  obtain ⟨W, hW⟩ : ∃ W, W = ofDone := ⟨_, rfl⟩
  rw [← hW]
  unfold ofDone at hW
  have b6 := h.b6
  have blt := h.blt
  refine done_loop (fun i => exec structs ext (run ext) W [("i", .u32, [some i]), ("array", tOf, [some t])]) _ h ?_ ?_ (b - 6) (i := 6) (by decide) (by omega)
  · intro log
    have hs := h.freeStr (b - 5)
    try dsimp only
    rw [exec_while ext _ hW]
    csimp
    rw [get32_step (v := b) (by sub hs) (by exact h.vBit), if_neg (Nat.lt_irrefl _)]
    rfl
  · intro i log h1 h2 hl
    have hs := h.freeStr (i - 5)
    have hin := bktIn (Nat.lt_trans h2 h.blt)
    have hi := inc32 (Nat.lt_trans h2 h.blt)
    have hp : 2 ^ i < 2 ^ sizeBit := pow_lt_pow' (by omega)
    try dsimp only
    conv => lhs; rw [exec_while ext _ hW]
    simp only [Stmt.list]
    csimp
    rw [get32_step (v := b) (by sub hs) (by exact h.vBit), if_pos h2, if_pos (Nat.lt_trans h2 h.blt), get_step (by sub hs) (by exact h.bkt i h2), shlS_step (by omega),
      get_step (v := es) (by sub hs) (by exact he)]
    csimp [mul_ssize_usize hp, hi]
    have e : (subT (base R (i - 5)) (es * segStart (i - 5)) + Tommy.sizeT (2 ^ i * es)) % 2 ^ sizeBit = base R (i - 5) := by
      unfold Tommy.sizeT
      rw [Nat.add_mod_mod, Nat.mul_comm (2 ^ i) es, h.segAddr hw h1 h2]
    rw [e, free_step hl]

theorem run_arrayof_done (s : CTy) {rest : List (Nat × (Nat → Nat))} {log : List BEvent} (h : SegR w t ofMax es n b m R) (he : HasEs t es w) (hw : Ok w) :
    run ext "tommy_arrayof_done" [⟨.ptr s, t⟩] ⟨w, rest, log⟩ = some (⟨.void, 0⟩, ⟨freeW w R, rest, log ++ R.map fun x => BEvent.gave x.1⟩) := by
  have b6 := h.b6
  have hR : R = R.take 1 ++ R.drop 1 := (List.take_append_drop ..).symm
  have hl : 0 < R.length := by rw [h.len]; omega
  have h1 : R.take 1 = [R.getD 0 (0, 0)] := by
    have := (h.take (j := 0) (by omega)).1
    simpa using this
  rw [run_fun rfl (show funs _ = some f_tommy_arrayof_done from rfl)]
  unfold f_tommy_arrayof_done
  have hd := fun log => exec_ofDone ext (rest := rest) (log := log) h he hw
  generalize hG : Stmt.for _ _ _ _ = G
  simp only [Stmt.list]
  csimp
  rw [get_step (p := t) (h.rBkt (i := 0) (lt_sizeBit (by decide))) (h.first hw).1, free_step (h.first hw).2]
  rw [← hG, exec_for]
  unfold ofDone at hd
  generalize Stmt.while _ _ = W at hd ⊢
  csimp
  have e : ({ w with live := upd w.live (base R 0) none } : AMem) = freeW w (R.take 1) := by
    have := freeW_app w [] (R.getD 0 (0, 0))
    rw [freeW_nil] at this
    rw [h1]; exact this
  rw [e]
  refine (bind_step (hd _)).trans ?_
  rw [List.append_assoc]
  have e2 : [BEvent.gave (base R 0)] ++ (R.drop 1).map (fun x => BEvent.gave x.1) = R.map fun x => BEvent.gave x.1 := by
    conv => rhs; rw [hR, h1]
    rfl
  rw [e2]
  rfl

end Tommy.CArr
