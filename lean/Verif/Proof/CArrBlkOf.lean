import Verif.Proof.CArrBlkFun
/-! The functions of tommyarrayblkof. -/
set_option autoImplicit false
set_option linter.unusedSectionVars false
set_option linter.unusedSimpArgs false
namespace Tommy.C
open Src
variable [Arch]

abbrev tBkf : CTy := .ptr (.struct "tommy_arrayblkof_struct")

/-- The offsets of the fields. -/
def bkfEs : Nat := ptrSize * sizeBit + 3 * ptrSize
def bkfCnt : Nat := ptrSize * sizeBit + 4 * ptrSize

@[csem] theorem field_bkfBlock : field structs "tommy_arrayblkof_struct" "block" = some (.struct "tommy_array_struct", 0) := by cases ‹Arch› <;> rfl
@[csem] theorem field_bkfEs : field structs "tommy_arrayblkof_struct" "element_size" = some (.usize, bkfEs) := by cases ‹Arch› <;> rfl
@[csem] theorem field_bkfCnt : field structs "tommy_arrayblkof_struct" "count" = some (.usize, bkfCnt) := by cases ‹Arch› <;> rfl

end Tommy.C

namespace Tommy.CArr
open CArraySpec C C.Src
open AllocSpec hiding blocks
open HashFlat hiding Fresh
variable [Arch] (ext : Ext)

variable {w : AMem} {t es n nb m : Nat} {R Bl : List (Nat × Nat)}

theorem bkfOff : strB arrMax ≤ bkfCnt := by
  have := p4
  unfold strB arrMax bkfCnt
  omega

/-- The size of the elements in the struct. -/
def HasEsB (t es : Nat) (w : AMem) : Prop := rdN w.byte (t + bkfEs) ptrSize = es

theorem mid_esB (t es : Nat) : MidB t bkfCnt (HasEsB t es) := by
  intro w w' h he
  have := p4
  unfold HasEsB at *
  rw [← he]
  exact rdN_congr fun x h1 h2 => h x (by unfold strB arrMax; unfold bkfEs at *; omega) (by unfold bkfCnt; unfold bkfEs at *; omega)

theorem BlkR.rEs (h : BlkR w t bkfCnt es n nb m R Bl) : InReg w (t + bkfEs) ptrSize := h.str.sub (by omega) (by unfold bkfEs bkfCnt; omega)

theorem BlkR.rBkf (h : BlkR w t bkfCnt es n nb m R Bl) : InReg w (t + bkfCnt) ptrSize := h.str.sub (by omega) (by omega)

/-! ### grow -/

/-- tommyarrayblkof.c:62-69 -/
def bkfGrow : Stmt := .while (.bin .lt (.var "block_mac") (.var "block_max"))
  (.block (.list [
    .declInit (.ptr (.ptr .void)) "ptr" (.call "calloc" (.cons (.bin .mul (.num 4) (.num 1024)) (.cons (.arrow (.var "array") "element_size") .nil))),
    .expr (.call "tommy_array_set" (.cons (.addr (.arrow (.var "array") "block")) (.cons (.var "block_mac") (.cons (.var "ptr") .nil)))),
    .expr (.assignOp .add (.var "block_mac") (.num 1))]))

theorem exec_bkfGrow {ms rest : List (Nat × (Nat → Nat))} {log : List BEvent} {c : Nat} (h : BlkR w t bkfCnt es n nb m R Bl) (hw : Ok w) (he : HasEsB t es w) (hg : Given w.live (List.replicate (nb - Bl.length) (4096 * es)) ms) :
    ∃ w', exec structs ext (run ext) bkfGrow [("block_mac", .usize, [some Bl.length]), ("block_max", .usize, [some nb]), ("array", tBkf, [some t]), ("count", .usize, [some c])]
        ⟨w, ms ++ rest, log⟩ =
      some ((.normal, [("block_mac", .usize, [some nb]), ("block_max", .usize, [some nb]), ("array", tBkf, [some t]), ("count", .usize, [some c])]),
        ⟨w', rest, log ++ (regs (List.replicate (nb - Bl.length) (4096 * es)) ms).map fun x => BEvent.got x.1 x.2⟩) ∧
      BGrown w t bkfCnt es n nb m R Bl [] (regs (List.replicate (nb - Bl.length) (4096 * es)) ms) w' := by
  obtain ⟨W, hW⟩ : ∃ W, W = bkfGrow := ⟨_, rfl⟩
  rw [← hW]
  unfold bkfGrow at hW
  have hnb := nb_lt h
  refine blk_loop (P := (HasEsB t es)) (fun k => exec structs ext (run ext) W [("block_mac", .usize, [some k]), ("block_max", .usize, [some nb]), ("array", tBkf, [some t]),
    ("count", .usize, [some c])]) _
    (mid_esB t es)
    rest ?_ ?_ _ h hw he (by have := h.le; omega) hg
  · intro w ms log
    try dsimp only
    rw [exec_while ext _ hW]
    csimp [Nat.lt_irrefl]
    rfl
  · intro w Bl mm ms log h hw he hlt hf
    have hss : Tommy.sizeT (Bl.length + 1) = Bl.length + 1 := Nat.mod_eq_of_lt (by omega)
    try dsimp only
    conv => lhs; rw [exec_while ext _ hW]
    simp only [Stmt.list]
    csimp [hss, hlt]
    rw [get_step h.rEs he]
    rw [calloc_step]
    try csimp
    refine (bind_step (run_array_set ext _ _ (h.seg.cal hf) (ok_cal hw hf) (le_bits _) hlt)).trans ?_
    try csimp
    rfl

theorem run_arrayblkof_grow (s : CTy) {m1 m2 rest : List (Nat × (Nat → Nat))} {log : List BEvent} {c : Nat} (h : BlkR w t bkfCnt es n (blocks n) m R Bl)
    (hl : Bl.length = blocks n) (he : HasEsB t es w) (hw : Ok w) (hc : c < 2 ^ sizeBit) (hg1 : Given w.live (segAsks ptrSize (blocks n) (blocks c)) m1)
    (hg2 : Given (addRegs w.live (regs (segAsks ptrSize (blocks n) (blocks c)) m1)) (List.replicate (blocks c - blocks n) (4096 * es)) m2) :
    ∃ w', run ext "tommy_arrayblkof_grow" [⟨.ptr s, t⟩, ⟨.usize, c⟩] ⟨w, m1 ++ (m2 ++ rest), log⟩ =
      some (⟨.void, 0⟩, ⟨w', rest, log ++ (regs (segAsks ptrSize (blocks n) (blocks c)) m1 ++
        regs (List.replicate (blocks c - blocks n) (4096 * es)) m2).map fun x => BEvent.got x.1 x.2⟩) ∧
      BGrown w t bkfCnt es (max n c) (blocks (max n c)) m R Bl (regs (segAsks ptrSize (blocks n) (blocks c)) m1)
        (regs (List.replicate (blocks c - blocks n) (4096 * es)) m2) w' := by
  have hnb := nb_lt h
  rw [run_fun rfl (show funs _ = some f_tommy_arrayblkof_grow from rfl)]
  unfold f_tommy_arrayblkof_grow
  have hW := fun (w' : AMem) (nb' : Nat) R' (log' : List BEvent) => exec_bkfGrow ext (w := w') (t := t) (es := es) (n := c) (nb := nb') (m := m) (R := R') (Bl := Bl) (ms := m2) (rest := rest) (log := log') (c := c)
  unfold bkfGrow at hW
  generalize Stmt.while _ _ = W at hW ⊢
  simp only [Stmt.list]
  csimp
  rw [get_step h.rBkf h.cnt]
  by_cases hlt : c ≤ n
  · rw [if_pos hlt]
    have hb : blocks c ≤ blocks n := by unfold blocks; omega
    have e : segAsks ptrSize (blocks n) (blocks c) = [] := by
      unfold segAsks
      rw [Nat.sub_eq_zero_of_le (bits_mono hb)]; rfl
    rw [e] at hg1 hg2 ⊢
    rw [Nat.sub_eq_zero_of_le hb] at hg2 ⊢
    cases m1 with
    | cons => exact hg1.elim
    | nil =>
    cases m2 with
    | cons => exact hg2.elim
    | nil =>
    refine ⟨w, ?_, ?_⟩
    · simp only [List.nil_append, regs, List.zipWith_nil_left, List.map_nil, List.append_nil, List.replicate_zero]; rfl
    · rw [Nat.max_eq_left hlt]
      exact ⟨by simpa [regs] using h, hw, rfl, fun _ _ => rfl⟩
  · rw [if_neg hlt, Nat.max_eq_right (by omega)]
    have hbd := blk_bound (c := c) h hw hg1 (by rw [hl]; exact hg2)
    have h1 := h.count hc
    have he1 : HasEsB t es (setW w (t + bkfCnt) ptrSize c) := mid_esB t es w _ (fun x _ hx => set_out (.inl hx)) he
    have hw1 := ok_set hw (t + bkfCnt) ptrSize c
    have hlive1 : (setW w (t + bkfCnt) ptrSize c).live = w.live := rfl
    have hbl : blocks n ≤ blocks c := by unfold blocks; omega
    rw [set_step h.rBkf]
    have hd : decT (Tommy.sizeT (c + 4096)) / 4096 = blocks c := blk_round hbd
    have hd' : decT (Tommy.sizeT (c + 4096)) < 2 ^ sizeBit := by
      have := C.pow_pos'
      have : Tommy.sizeT (c + 4096) < 2 ^ sizeBit := Nat.mod_lt _ C.pow_pos'
      unfold decT; split <;> omega
    have hd2 : Tommy.sizeT (c + 4096) < 2 ^ sizeBit := Nat.mod_lt _ C.pow_pos'
    csimp [hd, hd', hd2]
    rw [bind_step (run_array_size ext _ h1.seg)]
    csimp
    by_cases hb : blocks n < blocks c
    · obtain ⟨w2, e2, g2⟩ := run_array_grow ext (.struct "tommy_array_struct") (c := blocks c) (ms := m1) (rest := m2 ++ rest) (log := log) h1.seg hw1 (by
        unfold blocks
        have := C.pow_pos'
        omega) hg1
      rw [Nat.max_eq_right hbl] at g2
      have hI := h1.index hw1 hbl hg1 g2
      have hIb := hI.blk
      rw [List.append_nil] at hIb
      have he2 : HasEsB t es w2 := mid_esB t es _ w2 (fun x hx1 hx2 => hI.out x ⟨.inr (.inl ⟨hx1, hx2⟩), fun r hr => by
        have := hIb.sep r (by
          rw [List.append_nil] at hr
          exact List.mem_append_left _ hr)
        omega⟩) he1
      obtain ⟨w3, e3, g3⟩ := hW w2 (blocks c) _ (log ++ (regs (segAsks ptrSize (blocks n) (blocks c)) m1).map fun x => BEvent.got x.1 x.2) hIb hI.ok
        he2
        (by
          rw [hl, hI.live, List.append_nil]; exact hg2)
      rw [hl] at e3 g3
      refine ⟨w3, ?_, (hI.trans g3).count bkfOff⟩
      rw [if_pos hb]
      refine (bind_step e2).trans ?_
      try csimp
      refine (bind_step e3).trans ?_
      try csimp
      rw [List.append_assoc, ← List.map_append]
      rfl
    · have hbe : blocks c = blocks n := by omega
      have e : segAsks ptrSize (blocks n) (blocks c) = [] := by
        unfold segAsks
        rw [hbe, Nat.sub_self]; rfl
      rw [e] at hg1 hg2 ⊢
      rw [Nat.sub_eq_zero_of_le (by omega)] at hg2 ⊢
      cases m1 with
      | cons => exact hg1.elim
      | nil =>
      cases m2 with
      | cons => exact hg2.elim
      | nil =>
      refine ⟨setW w (t + bkfCnt) ptrSize c, ?_, BGrown.count (c := c) ?_ bkfOff⟩
      · rw [if_neg hb]
        simp only [List.nil_append, regs, List.zipWith_nil_left, List.map_nil, List.append_nil, List.replicate_zero]; rfl
      · rw [hbe]
        exact ⟨by simpa [regs] using h1, hw1, rfl, fun _ _ => rfl⟩

/-! ### ref, size, usage -/

theorem run_arrayblkof_ref (s : CTy) {ms : List (Nat × (Nat → Nat))} {log : List BEvent} {pos : Nat} (h : BlkR w t bkfCnt es n nb m R Bl)
    (he : HasEsB t es w) (hw : Ok w) (hn : n < 2 ^ sizeBit) (hb : pos / 4096 < Bl.length) (hp : pos < n) :
    run ext "tommy_arrayblkof_ref" [⟨.ptr s, t⟩, ⟨.usize, pos⟩] ⟨w, ms, log⟩ =
      some (⟨.ptr .void, baddr Bl es pos⟩, ⟨w, ms, log⟩) := by
  have hpl : pos < 2 ^ sizeBit := by omega
  have hle := h.le
  obtain ⟨r, hr, hre, h1, h2⟩ := h.elem hb
  have h3 := hw.pos _ _ (h.live r hr)
  have hes := h.ess
  rw [run_fun rfl (show funs _ = some f_tommy_arrayblkof_ref from rfl)]
  unfold f_tommy_arrayblkof_ref
  simp only [Stmt.list]
  csimp [arr_assert, hpl]
  rw [get_step h.rBkf h.cnt]
  csimp [hp]
  refine (bind_step (run_array_get ext _ h.seg hw (le_bits _) (by omega))).trans ?_
  try csimp
  rw [h.ix _ hb]
  rw [get_step h.rEs he]
  have e : (base Bl (pos / 4096) + Tommy.sizeT (pos % 4096 * es)) % 2 ^ sizeBit = baddr Bl es pos := by
    unfold Tommy.sizeT
    rw [Nat.add_mod_mod, Nat.mul_comm]
    exact Nat.mod_eq_of_lt (show baddr Bl es pos < _ by omega)
  rw [e]
  rfl

theorem run_arrayblkof_size (s : CTy) {ms : List (Nat × (Nat → Nat))} {log : List BEvent} (h : BlkR w t bkfCnt es n nb m R Bl) :
    run ext "tommy_arrayblkof_size" [⟨.ptr s, t⟩] ⟨w, ms, log⟩ = some (⟨.usize, n⟩, ⟨w, ms, log⟩) := by
  rw [run_fun rfl (show funs _ = some f_tommy_arrayblkof_size from rfl)]
  unfold f_tommy_arrayblkof_size
  simp only [Stmt.list]
  csimp
  rw [get_step h.rBkf h.cnt]
  rfl

theorem run_arrayblkof_usage (s : CTy) {ms : List (Nat × (Nat → Nat))} {log : List BEvent} (h : BlkR w t bkfCnt es n nb m R Bl) (hl : Bl.length = nb) (he : HasEsB t es w) (hw : Ok w) :
    run ext "tommy_arrayblkof_memory_usage" [⟨.ptr s, t⟩] ⟨w, ms, log⟩ = some (⟨.usize, ((R ++ Bl).map Prod.snd).sum⟩, ⟨w, ms, log⟩) := by
  have hs := sum_lt hw (R ++ Bl) h.nodup h.all
  have e1 : Bl.map Prod.snd = List.replicate nb (4096 * es) := by
    rw [List.eq_replicate_iff]
    refine ⟨by simp [hl], ?_⟩
    intro x hx
    rw [List.mem_map] at hx
    obtain ⟨r, hr, rfl⟩ := hx
    exact h.sz r hr
  rw [List.map_append, List.sum_append, e1, List.sum_replicate_nat] at hs ⊢
  rw [run_fun rfl (show funs _ = some f_tommy_arrayblkof_memory_usage from rfl)]
  unfold f_tommy_arrayblkof_memory_usage
  simp only [Stmt.list]
  csimp
  refine (bind_step (run_array_usage ext _ h.seg hw)).trans ?_
  try csimp
  refine (bind_step (run_array_size ext _ h.seg)).trans ?_
  try csimp
  rw [get_step h.rEs he]
  have e2 : Tommy.sizeT ((R.map Prod.snd).sum + Tommy.sizeT (Tommy.sizeT (nb * 4096) * es)) = (R.map Prod.snd).sum + nb * (4096 * es) := by
    unfold Tommy.sizeT
    rw [Nat.mod_mul_mod, Nat.add_mod_mod, Nat.mul_assoc, Nat.mod_eq_of_lt hs]
  rw [e2]
  rfl

/-! ### init -/

theorem run_arrayblkof_init (s : CTy) {mm : Nat × (Nat → Nat)} {rest : List (Nat × (Nat → Nat))} {log : List BEvent} (hs : InReg w t (bkfCnt + ptrSize))
    (hf : Fresh w.live mm.1 (64 * ptrSize)) :
    run ext "tommy_arrayblkof_init" [⟨.ptr s, t⟩, ⟨.usize, es⟩] ⟨w, mm :: rest, log⟩ =
      some (⟨.void, 0⟩, ⟨setW (setW (initW w t arrMax ptrSize mm.1) (t + bkfEs) ptrSize es) (t + bkfCnt) ptrSize 0, rest, log ++ [.got mm.1 (64 * ptrSize)]⟩) := by
  have ho := bkfOff
  have hlive : (initW w t arrMax ptrSize mm.1).live = upd w.live mm.1 (some (64 * ptrSize)) := by
    unfold initW
    rw [set_live, fill_live, set_live]; rfl
  have hs' : InReg (initW w t arrMax ptrSize mm.1) t (bkfCnt + ptrSize) := InReg.setL (w := calW w mm.1 (64 * ptrSize)) hlive (hs.cal hf)
  rw [run_fun rfl (show funs _ = some f_tommy_arrayblkof_init from rfl)]
  unfold f_tommy_arrayblkof_init
  simp only [Stmt.list]
  csimp
  refine (bind_step (run_array_init ext _ (hs.sub (Nat.le_refl _) (by omega)) hf)).trans ?_
  try csimp
  rw [set_step (hs'.sub (by omega) (by unfold bkfEs bkfCnt; omega))]
  have hs2 : InReg (setW (initW w t arrMax ptrSize mm.1) (t + bkfEs) ptrSize es) t (bkfCnt + ptrSize) := InReg.setL rfl hs'
  rw [set_step (hs2.sub (by omega) (by omega))]
  rfl

theorem bkfInit_spec (hs : InReg w t (bkfCnt + ptrSize)) (hw : Ok w) {p : Nat} (hf : Fresh w.live p (64 * ptrSize))
    (he : 0 < es) (hes : es < 2 ^ sizeBit) {w' : AMem} (e : w' = setW (setW (initW w t arrMax ptrSize p) (t + bkfEs) ptrSize es) (t + bkfCnt) ptrSize 0) :
    BlkR w' t bkfCnt es 0 0 0 [(p, 64 * ptrSize)] [] ∧ Ok w' ∧ w'.live = upd w.live p (some (64 * ptrSize)) ∧
    HasEsB t es w' ∧
    ∀ x, x < t ∨ t + (bkfCnt + ptrSize) ≤ x → x < p ∨ p + 64 * ptrSize ≤ x → w'.byte x = w.byte x := by
  have ho := bkfOff
  have hp4 := p4
  have hfr := hs.fresh hf
  have hA : arrMax = ptrSize * sizeBit := rfl
  have hB : strB arrMax = arrMax + 2 * ptrSize + 4 := rfl
  have hO : bkfCnt + ptrSize ≥ ptrSize := Nat.le_add_left _ _
  have hO1 : bkfEs = ptrSize * sizeBit + 3 * ptrSize := rfl
  have hO2 : bkfCnt = ptrSize * sizeBit + 4 * ptrSize := rfl
  obtain ⟨h1, h2, h3, h4⟩ := init_spec (hs.sub (Nat.le_refl _) (by omega)) hw (o := arrMax) (Nat.le_refl _) (show 0 < ptrSize by omega) hf
  have hout : ∀ x, x < t + strB arrMax ∨ t + (bkfCnt + ptrSize) ≤ x → w'.byte x = (initW w t arrMax ptrSize p).byte x := by
    intro x hx
    rw [e, set_out (by omega)]
    rw [set_out (by omega)]
  have hlive : w'.live = upd w.live p (some (64 * ptrSize)) := by
    rw [e]; exact h3
  have hstr : InReg w' t (bkfCnt + ptrSize) := InReg.setL (w := calW w p (64 * ptrSize)) hlive (hs.cal hf)
  refine ⟨⟨?_, by simp, ho,
    he,
    hstr, ?_, by simp, by simp, by simp, by simp, ?_, by simp⟩, ?_, hlive,
    ?_,
    ?_⟩
  · rw [show bits 0 = 6 by decide]
    refine h1.congr (hstr.sub (Nat.le_refl _) (by omega)) ?_ ?_
    · intro r hr
      rw [hlive, ← h3]
      exact h1.live r hr
    · rintro x (hx | ⟨pos, _, k2, k3, k4⟩)
      · exact hout x (by omega)
      · obtain ⟨r, hr, _, h5, h6⟩ := h1.elem k2
        rw [List.mem_singleton] at hr
        subst hr
        dsimp only at h5 h6
        exact hout x (by omega)
  · rw [e]
    exact rd_set (Nat.two_pow_pos _)
  · intro r hr
    rw [List.append_nil, List.mem_singleton] at hr
    subst hr
    exact hfr
  · rw [e]
    exact ok_set (ok_set h2 _ _ _) _ _ _
  · unfold HasEsB
    rw [e, rd_set_out (by omega)]
    exact rd_set (by rw [C.eight_ptr]; exact hes)
  · intro x hx1 hx2
    rw [hout x (by omega)]
    exact h4 x ⟨by omega, by simpa using hx2⟩

/-! ### done -/

/-- tommyarrayblkof.c:43-46 -/
def bkfDone : Stmt := .while (.bin .lt (.var "i") (.call "tommy_array_size" (.cons (.addr (.arrow (.var "array") "block")) .nil)))
  (.seq (.expr (.call "free" (.cons (.call "tommy_array_get" (.cons (.addr (.arrow (.var "array") "block")) (.cons (.var "i") .nil))) .nil)))
    (.expr (.assignOp .add (.var "i") (.num 1))))

theorem exec_bkfDone {rest : List (Nat × (Nat → Nat))} {log : List BEvent} (h : BlkR w t bkfCnt es n nb m R Bl) (hl : Bl.length = nb) (hw : Ok w) :
    exec structs ext (run ext) bkfDone [("i", .usize, [some 0]), ("array", tBkf, [some t])] ⟨w, rest, log⟩ =
      some ((.normal, [("i", .usize, [some nb]), ("array", tBkf, [some t])]), ⟨freeW w Bl, rest, log ++ Bl.map fun x => BEvent.gave x.1⟩) := by
  obtain ⟨W, hW⟩ : ∃ W, W = bkfDone := ⟨_, rfl⟩
  rw [← hW]
  unfold bkfDone at hW
  have hnb := nb_lt h
  have key := blkDone_loop (fun i => exec structs ext (run ext) W [("i", .usize, [some i]), ("array", tBkf, [some t])])
    (Ctl.normal, [("i", .usize, [some nb]), ("array", tBkf, [some t])]) (rest := rest) h hl ?_ ?_ nb (i := 0) (log := log) (by omega)
  · rw [List.take_zero, freeW_nil] at key
    exact key
  · intro log
    try dsimp only
    have hs := h.freeSeg nb
    rw [← hl, List.take_length, hl] at hs
    rw [exec_while ext _ hW]
    csimp
    refine (bind_step (run_array_size ext _ hs)).trans ?_
    csimp [Nat.lt_irrefl]
    rfl
  · intro i log hi hlv
    have hs := h.freeSeg i
    have hss : Tommy.sizeT (i + 1) = i + 1 := Nat.mod_eq_of_lt (by omega)
    try dsimp only
    conv => lhs; rw [exec_while ext _ hW]
    csimp
    refine (bind_step (run_array_size ext _ hs)).trans ?_
    csimp [hss, hi]
    refine (bind_step (run_array_get ext _ hs (freeW_ok hw) (le_bits _) hi)).trans ?_
    have e : rdN (freeW w (Bl.take i)).byte (eaddr R ptrSize i) ptrSize = base Bl i := h.ix i (by omega)
    rw [e]
    csimp
    rw [free_step hlv]

theorem run_arrayblkof_done (s : CTy) {rest : List (Nat × (Nat → Nat))} {log : List BEvent} (h : BlkR w t bkfCnt es n nb m R Bl) (hl : Bl.length = nb) (hw : Ok w) :
    run ext "tommy_arrayblkof_done" [⟨.ptr s, t⟩] ⟨w, rest, log⟩ =
      some (⟨.void, 0⟩, ⟨freeW w (Bl ++ R), rest, log ++ (Bl ++ R).map fun x => BEvent.gave x.1⟩) := by
  rw [run_fun rfl (show funs _ = some f_tommy_arrayblkof_done from rfl)]
  unfold f_tommy_arrayblkof_done
  have hd := exec_bkfDone ext (rest := rest) (log := log) h hl hw
  have hs := h.freeSeg nb
  rw [← hl, List.take_length, hl] at hs
  generalize hG : Stmt.for _ _ _ _ = G
  simp only [Stmt.list]
  csimp
  rw [← hG, exec_for]
  unfold bkfDone at hd
  generalize Stmt.while _ _ = W at hd ⊢
  csimp
  refine (bind_step hd).trans ?_
  try csimp
  refine (bind_step (run_array_done ext _ hs (freeW_ok hw))).trans ?_
  rw [freeW_freeW, List.append_assoc, ← List.map_append]
  rfl


end Tommy.CArr
