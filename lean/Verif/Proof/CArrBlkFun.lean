import Verif.Proof.CArrBlk
/-! The functions of tommyarrayblk. -/
set_option autoImplicit false
set_option linter.unusedSectionVars false
set_option linter.unusedSimpArgs false
namespace Tommy.C
open Src
variable [Arch]

abbrev tBlk : CTy := .ptr (.struct "tommy_arrayblk_struct")

/-- The offsets of the fields. -/
def blkCnt : Nat := ptrSize * sizeBit + 3 * ptrSize

@[csem] theorem mul_4k : binop .mul ⟨.s32, 4⟩ ⟨.s32, 1024⟩ = some ⟨.s32, 4096⟩ := by
  bin [conv_same]
  rw [int_s32 (by decide), int_s32 (by decide)]; rfl
@[csem] theorem mul_usize_lit {a n : Nat} (h : n < 2 ^ 31) : binop .mul ⟨.usize, a⟩ ⟨.s32, n⟩ = some ⟨.usize, Tommy.sizeT (a * n)⟩ := by
  bin [conv_usize_lit n h, toNat_mul_mod]; rfl
@[csem] theorem mod_usize {a n : Nat} (h : a < 2 ^ sizeBit) (h' : n < 2 ^ 31) (h0 : 0 < n) : binop .mod ⟨.usize, a⟩ ⟨.s32, n⟩ = some ⟨.usize, a % n⟩ := by
  have : ¬ n = 0 := by omega
  have h2 : a % n < 2 ^ sizeBit := Nat.lt_of_le_of_lt (Nat.mod_le _ _) h
  bin [conv_usize_lit n h', this]
  rw [← Int.ofNat_tmod, toNat_mod, Nat.mod_eq_of_lt h2]
@[csem] theorem run_calloc_lit (ext : Ext) (n m : Nat) (h : n < 2 ^ 31) : run ext "calloc" [⟨.s32, n⟩, ⟨.usize, m⟩] = (do let p ← hbcalloc n m; return ⟨.ptr .void, p⟩) := by
  rw [run_builtin rfl, conv_usize_lit n h, conv_same]
@[csem] theorem field_blkBlock : field structs "tommy_arrayblk_struct" "block" = some (.struct "tommy_array_struct", 0) := by cases ‹Arch› <;> rfl
@[csem] theorem field_blkCnt : field structs "tommy_arrayblk_struct" "count" = some (.usize, blkCnt) := by cases ‹Arch› <;> rfl

end Tommy.C

namespace Tommy.CArr
open CArraySpec C C.Src
open AllocSpec hiding blocks
open HashFlat hiding Fresh
variable [Arch] (ext : Ext)

variable {w : AMem} {t es n nb m : Nat} {R Bl : List (Nat × Nat)}

/-! ### Facts -/

theorem regs_snd {ns : List Nat} {live : Nat → Option Nat} {ms : List (Nat × (Nat → Nat))} (hg : Given live ns ms) : (regs ns ms).map Prod.snd = ns := by
  unfold regs
  have := given_len hg
  rw [List.map_zipWith]
  refine List.ext_getElem (by simp; omega) ?_
  intro i h1 h2
  simp

theorem pow_4k : ∃ K, 2 ^ sizeBit = 4096 * K := ⟨2 ^ (sizeBit - 12), by
  have : sizeBit = 12 + (sizeBit - 12) := by arch
  conv => lhs; rw [this, Nat.pow_add]⟩

/-- The rounding of the number of elements does not overflow. -/
theorem blk_bound {o c : Nat} (h : BlkR w t o es n nb m R Bl) (hw : Ok w) {m1 m2 : List (Nat × (Nat → Nat))} {ns : List Nat} (hg1 : Given w.live ns m1)
    (hg2 : Given (addRegs w.live (regs ns m1)) (List.replicate (blocks c - Bl.length) (4096 * es)) m2) : c + 4096 ≤ 2 ^ sizeBit := by
  have k1 := given_add ⟨hw.pos, hw.reg⟩ hg1
  have k2 := given_add k1.1 hg2
  have hn := h.nodup
  rw [List.map_append, List.nodup_append] at hn
  have hs := sum_lt (w := ⟨w.byte, addRegs (addRegs w.live (regs ns m1)) (regs (List.replicate (blocks c - Bl.length) (4096 * es)) m2)⟩)
    ⟨hw.byte, k2.1.pos, k2.1.reg⟩ (Bl ++ regs (List.replicate (blocks c - Bl.length) (4096 * es)) m2)
    (by
      rw [List.map_append, List.nodup_append]
      refine ⟨hn.2.1, k2.2.2.2.2, ?_⟩
      intro x hx y hy e
      rw [List.mem_map] at hx hy
      obtain ⟨r, hr, rfl⟩ := hx
      obtain ⟨q, hq, rfl⟩ := hy
      have h1 := k2.2.2.2.1 q hq
      rw [← e, k1.2.1 _ _ (h.live r hr)] at h1
      cases h1)
    (by
      intro r hr
      rw [List.mem_append] at hr
      rcases hr with hr | hr
      · exact k2.2.1 _ _ (k1.2.1 _ _ (h.live r hr))
      · exact (k2.2.2.1 r hr).1)
  have e1 : Bl.map Prod.snd = List.replicate Bl.length (4096 * es) := by
    rw [List.eq_replicate_iff]
    refine ⟨by simp, ?_⟩
    intro x hx
    rw [List.mem_map] at hx
    obtain ⟨r, hr, rfl⟩ := hx
    exact h.sz r hr
  rw [List.map_append, List.sum_append, regs_snd hg2, e1, List.sum_replicate_nat, List.sum_replicate_nat, ← Nat.add_mul] at hs
  have h1 : blocks c ≤ Bl.length + (blocks c - Bl.length) := by omega
  have h2 : blocks c * (4096 * 1) ≤ (Bl.length + (blocks c - Bl.length)) * (4096 * es) := Nat.mul_le_mul h1 (Nat.mul_le_mul_left _ h.ess)
  obtain ⟨K, hK⟩ := pow_4k
  unfold blocks at *
  omega

theorem blk_round {c : Nat} (h : c + 4096 ≤ 2 ^ sizeBit) : decT (Tommy.sizeT (c + 4096)) / 4096 = blocks c := by
  unfold blocks
  congr 1
  unfold decT
  by_cases h' : c + 4096 = 2 ^ sizeBit
  · rw [h']
    unfold Tommy.sizeT
    rw [Nat.mod_self, if_pos rfl]
    omega
  · have : Tommy.sizeT (c + 4096) = c + 4096 := Nat.mod_eq_of_lt (by omega)
    rw [this, if_neg (by omega)]
    rfl

theorem SegR.cal {o b : Nat} (h : SegR w t o es n b m R) {p k : Nat} (hf : Fresh w.live p k) : SegR (calW w p k) t o es n b m R := by
  refine h.congr (h.str.cal hf) ?_ ?_
  · intro r hr
    show upd w.live p _ _ = _
    rw [upd_ne]
    · exact h.live r hr
    · intro e
      have := h.live r hr
      rw [e, hf.none] at this
      cases this
  · rintro x (hx | ⟨pos, _, h2, h3, h4⟩)
    · have := h.str.fresh hf
      exact cal_out (by omega)
    · obtain ⟨r, hr, _, h5, h6⟩ := h.elem h2
      have := hf.sep _ _ (h.live r hr)
      exact cal_out (by omega)

theorem freeW_ok {L : List (Nat × Nat)} (h : Ok w) : Ok (freeW w L) := by
  have key : ∀ b k, (freeW w L).live b = some k → w.live b = some k := by
    intro b k e
    change (if _ then _ else _) = _ at e
    split at e
    · cases e
    · exact e
  exact ⟨h.byte, fun b k e => h.pos b k (key b k e), fun b k b' k' e e' => h.reg b k b' k' (key b k e) (key b' k' e')⟩

theorem freeW_freeW (w : AMem) (L L' : List (Nat × Nat)) : freeW (freeW w L) L' = freeW w (L ++ L') := by
  unfold freeW
  show AMem.mk _ _ = AMem.mk _ _
  congr 1
  funext x
  rw [List.map_append]
  simp only [List.mem_append]
  by_cases h1 : x ∈ L.map Prod.fst <;> by_cases h2 : x ∈ L'.map Prod.fst <;> simp only [h1, h2, if_true, if_false, or_self, or_true, true_or, or_false]

theorem BlkR.freeSeg {o : Nat} (h : BlkR w t o es n nb m R Bl) (i : Nat) : SegR (freeW w (Bl.take i)) t arrMax ptrSize nb (bits nb) nb R := by
  refine h.seg.congr ?_ ?_ fun _ _ => rfl
  · have := h.off
    exact h.seg.str.free (by unfold strB; omega) (fun r hr => h.live r (List.mem_of_mem_take hr)) fun r hr => by
      have := h.sep r (List.mem_append_right _ (List.mem_of_mem_take hr))
      omega
  · intro r hr
    refine freeW_live (h.seg.live r hr) ?_
    have hn := h.nodup
    rw [List.map_append, List.nodup_append] at hn
    intro hm
    rw [List.mem_map] at hm
    obtain ⟨q, hq, e⟩ := hm
    exact hn.2.2 _ (List.mem_map_of_mem hr) _ (List.mem_map_of_mem (List.mem_of_mem_take hq)) e.symm

theorem nb_lt {o : Nat} (h : BlkR w t o es n nb m R Bl) : nb < 2 ^ sizeBit := Nat.lt_of_le_of_lt (le_bits nb) (pow_lt_pow' h.seg.blt)

/-- The loop of done. -/
theorem blkDone_loop {γ : Type} {o : Nat} (X : Nat → BM γ) (r : γ) {rest : List (Nat × (Nat → Nat))} (h : BlkR w t o es n nb m R Bl) (hnb : Bl.length = nb)
    (stop : ∀ {log}, X nb ⟨freeW w Bl, rest, log⟩ = some (r, ⟨freeW w Bl, rest, log⟩))
    (turn : ∀ {i log}, i < nb → (freeW w (Bl.take i)).live (base Bl i) = some (Bl.getD i (0, 0)).2 →
      X i ⟨freeW w (Bl.take i), rest, log⟩ =
        X (i + 1) ⟨{ freeW w (Bl.take i) with live := upd (freeW w (Bl.take i)).live (base Bl i) none }, rest, log ++ [.gave (base Bl i)]⟩)
    (k : Nat) : ∀ {i log}, i + k = nb → X i ⟨freeW w (Bl.take i), rest, log⟩ =
      some (r, ⟨freeW w Bl, rest, log ++ (Bl.drop i).map fun x => BEvent.gave x.1⟩) := by
  induction k with
  | zero =>
    intro i log hk
    have : i = nb := hk
    subst this
    rw [← hnb, List.take_length, List.drop_length, hnb, stop]
    simp
  | succ k ih =>
    intro i log hk
    have hl : i < Bl.length := by omega
    have h1 : Bl.take (i + 1) = Bl.take i ++ [Bl.getD i (0, 0)] := by
      rw [List.take_succ_eq_append_getElem hl, List.getD_eq_getElem _ _ hl]
    have hn := h.nodup
    rw [List.map_append, List.nodup_append] at hn
    have h2 : (Bl.getD i (0, 0)).1 ∉ (Bl.take i).map Prod.fst := by
      rw [List.mem_map]
      rintro ⟨r, hr, e⟩
      obtain ⟨j, hj, e'⟩ := List.mem_take_iff_getElem.1 hr
      have := getD_inj hn.2.1 (i := j) (j := i) (by omega) hl (by rw [← e, List.getD_eq_getElem _ _ (by omega), e'])
      omega
    have e := freeW_app w (Bl.take i) (Bl.getD i (0, 0))
    rw [← h1] at e
    rw [turn (by omega) (freeW_live (h.live _ (getD_mem hl)) h2)]
    unfold base
    rw [e, ih (by omega), List.drop_eq_getElem_cons hl, List.getD_eq_getElem _ _ hl]
    simp only [List.map_cons, List.append_assoc, List.singleton_append]

theorem blkOff : strB arrMax ≤ blkCnt := by
  have := p4
  unfold strB arrMax blkCnt
  omega

theorem BlkR.rBlk (h : BlkR w t blkCnt ptrSize n nb m R Bl) : InReg w (t + blkCnt) ptrSize := h.str.sub (by omega) (by omega)

/-! ### grow -/

/-- tommyarrayblk.c:62-69 -/
def blkGrow : Stmt := .while (.bin .lt (.var "block_mac") (.var "block_max"))
  (.block (.list [
    .declInit (.ptr (.ptr .void)) "ptr" (.call "calloc" (.cons (.bin .mul (.num 4) (.num 1024)) (.cons (.sizeT (.ptr .void)) .nil))),
    .expr (.call "tommy_array_set" (.cons (.addr (.arrow (.var "array") "block")) (.cons (.var "block_mac") (.cons (.var "ptr") .nil)))),
    .expr (.assignOp .add (.var "block_mac") (.num 1))]))

theorem exec_blkGrow {ms rest : List (Nat × (Nat → Nat))} {log : List BEvent} {c : Nat} (h : BlkR w t blkCnt ptrSize n nb m R Bl) (hw : Ok w) (hg : Given w.live (List.replicate (nb - Bl.length) (4096 * ptrSize)) ms) :
    ∃ w', exec structs ext (run ext) blkGrow [("block_mac", .usize, [some Bl.length]), ("block_max", .usize, [some nb]), ("array", tBlk, [some t]), ("count", .usize, [some c])]
        ⟨w, ms ++ rest, log⟩ =
      some ((.normal, [("block_mac", .usize, [some nb]), ("block_max", .usize, [some nb]), ("array", tBlk, [some t]), ("count", .usize, [some c])]),
        ⟨w', rest, log ++ (regs (List.replicate (nb - Bl.length) (4096 * ptrSize)) ms).map fun x => BEvent.got x.1 x.2⟩) ∧
      BGrown w t blkCnt ptrSize n nb m R Bl [] (regs (List.replicate (nb - Bl.length) (4096 * ptrSize)) ms) w' := by
  obtain ⟨W, hW⟩ : ∃ W, W = blkGrow := ⟨_, rfl⟩
  rw [← hW]
  unfold blkGrow at hW
  have hnb := nb_lt h
  refine blk_loop (P := (fun _ => True)) (fun k => exec structs ext (run ext) W [("block_mac", .usize, [some k]), ("block_max", .usize, [some nb]), ("array", tBlk, [some t]),
    ("count", .usize, [some c])]) _
    (fun _ _ _ _ => trivial)
    rest ?_ ?_ _ h hw trivial (by have := h.le; omega) hg
  · intro w ms log
    try dsimp only
    rw [exec_while ext _ hW]
    csimp [Nat.lt_irrefl]
    rfl
  · intro w Bl mm ms log h hw he hlt hf
    have hss : Tommy.sizeT (Bl.length + 1) = Bl.length + 1 := Nat.mod_eq_of_lt (by omega)
    try dsimp only
    conv => lhs; rw [exec_while ext _ hW]
    simp only [Stmt.list]
    csimp [hss, hlt]
    rw [calloc_step]
    try csimp
    refine (bind_step (run_array_set ext _ _ (h.seg.cal hf) (ok_cal hw hf) (le_bits _) hlt)).trans ?_
    try csimp
    rfl

theorem run_arrayblk_grow (s : CTy) {m1 m2 rest : List (Nat × (Nat → Nat))} {log : List BEvent} {c : Nat} (h : BlkR w t blkCnt ptrSize n (blocks n) m R Bl)
    (hl : Bl.length = blocks n) (hw : Ok w) (hc : c < 2 ^ sizeBit) (hg1 : Given w.live (segAsks ptrSize (blocks n) (blocks c)) m1)
    (hg2 : Given (addRegs w.live (regs (segAsks ptrSize (blocks n) (blocks c)) m1)) (List.replicate (blocks c - blocks n) (4096 * ptrSize)) m2) :
    ∃ w', run ext "tommy_arrayblk_grow" [⟨.ptr s, t⟩, ⟨.usize, c⟩] ⟨w, m1 ++ (m2 ++ rest), log⟩ =
      some (⟨.void, 0⟩, ⟨w', rest, log ++ (regs (segAsks ptrSize (blocks n) (blocks c)) m1 ++
        regs (List.replicate (blocks c - blocks n) (4096 * ptrSize)) m2).map fun x => BEvent.got x.1 x.2⟩) ∧
      BGrown w t blkCnt ptrSize (max n c) (blocks (max n c)) m R Bl (regs (segAsks ptrSize (blocks n) (blocks c)) m1)
        (regs (List.replicate (blocks c - blocks n) (4096 * ptrSize)) m2) w' := by
  have hnb := nb_lt h
  rw [run_fun rfl (show funs _ = some f_tommy_arrayblk_grow from rfl)]
  unfold f_tommy_arrayblk_grow
  have hW := fun (w' : AMem) (nb' : Nat) R' (log' : List BEvent) => exec_blkGrow ext (w := w') (t := t) (n := c) (nb := nb') (m := m) (R := R') (Bl := Bl) (ms := m2) (rest := rest) (log := log') (c := c)
  unfold blkGrow at hW
  generalize Stmt.while _ _ = W at hW ⊢
  simp only [Stmt.list]
  csimp
  rw [get_step h.rBlk h.cnt]
  by_cases hlt : c ≤ n
  · rw [if_pos hlt]
    have hb : blocks c ≤ blocks n := by unfold blocks; omega
    have e : segAsks ptrSize (blocks n) (blocks c) = [] := by
      unfold segAsks
      rw [Nat.sub_eq_zero_of_le (bits_mono hb)]; rfl
    rw [e] at hg1 hg2 ⊢
    rw [Nat.sub_eq_zero_of_le hb] at hg2 ⊢
    cases m1 with
    | cons => exact hg1.elim
    | nil =>
    cases m2 with
    | cons => exact hg2.elim
    | nil =>
    refine ⟨w, ?_, ?_⟩
    · simp only [List.nil_append, regs, List.zipWith_nil_left, List.map_nil, List.append_nil, List.replicate_zero]; rfl
    · rw [Nat.max_eq_left hlt]
      exact ⟨by simpa [regs] using h, hw, rfl, fun _ _ => rfl⟩
  · rw [if_neg hlt, Nat.max_eq_right (by omega)]
    have hbd := blk_bound (c := c) h hw hg1 (by rw [hl]; exact hg2)
    have h1 := h.count hc
    have hw1 := ok_set hw (t + blkCnt) ptrSize c
    have hlive1 : (setW w (t + blkCnt) ptrSize c).live = w.live := rfl
    have hbl : blocks n ≤ blocks c := by unfold blocks; omega
    rw [set_step h.rBlk]
    have hd : decT (Tommy.sizeT (c + 4096)) / 4096 = blocks c := blk_round hbd
    have hd' : decT (Tommy.sizeT (c + 4096)) < 2 ^ sizeBit := by
      have := C.pow_pos'
      have : Tommy.sizeT (c + 4096) < 2 ^ sizeBit := Nat.mod_lt _ C.pow_pos'
      unfold decT; split <;> omega
    have hd2 : Tommy.sizeT (c + 4096) < 2 ^ sizeBit := Nat.mod_lt _ C.pow_pos'
    csimp [hd, hd', hd2]
    rw [bind_step (run_array_size ext _ h1.seg)]
    csimp
    by_cases hb : blocks n < blocks c
    · obtain ⟨w2, e2, g2⟩ := run_array_grow ext (.struct "tommy_array_struct") (c := blocks c) (ms := m1) (rest := m2 ++ rest) (log := log) h1.seg hw1 (by
        unfold blocks
        have := C.pow_pos'
        omega) hg1
      rw [Nat.max_eq_right hbl] at g2
      have hI := h1.index hw1 hbl hg1 g2
      have hIb := hI.blk
      rw [List.append_nil] at hIb
      obtain ⟨w3, e3, g3⟩ := hW w2 (blocks c) _ (log ++ (regs (segAsks ptrSize (blocks n) (blocks c)) m1).map fun x => BEvent.got x.1 x.2) hIb hI.ok
        (by
          rw [hl, hI.live, List.append_nil]; exact hg2)
      rw [hl] at e3 g3
      refine ⟨w3, ?_, (hI.trans g3).count blkOff⟩
      rw [if_pos hb]
      refine (bind_step e2).trans ?_
      try csimp
      refine (bind_step e3).trans ?_
      try csimp
      rw [List.append_assoc, ← List.map_append]
      rfl
    · have hbe : blocks c = blocks n := by omega
      have e : segAsks ptrSize (blocks n) (blocks c) = [] := by
        unfold segAsks
        rw [hbe, Nat.sub_self]; rfl
      rw [e] at hg1 hg2 ⊢
      rw [Nat.sub_eq_zero_of_le (by omega)] at hg2 ⊢
      cases m1 with
      | cons => exact hg1.elim
      | nil =>
      cases m2 with
      | cons => exact hg2.elim
      | nil =>
      refine ⟨setW w (t + blkCnt) ptrSize c, ?_, BGrown.count (c := c) ?_ blkOff⟩
      · rw [if_neg hb]
        simp only [List.nil_append, regs, List.zipWith_nil_left, List.map_nil, List.append_nil, List.replicate_zero]; rfl
      · rw [hbe]
        exact ⟨by simpa [regs] using h1, hw1, rfl, fun _ _ => rfl⟩

/-! ### ref, size, usage -/

theorem run_arrayblk_ref (s : CTy) {ms : List (Nat × (Nat → Nat))} {log : List BEvent} {pos : Nat} (h : BlkR w t blkCnt ptrSize n nb m R Bl)
    (hw : Ok w) (hn : n < 2 ^ sizeBit) (hb : pos / 4096 < Bl.length) (hp : pos < n) :
    run ext "tommy_arrayblk_ref" [⟨.ptr s, t⟩, ⟨.usize, pos⟩] ⟨w, ms, log⟩ =
      some (⟨.ptr (.ptr .void), baddr Bl ptrSize pos⟩, ⟨w, ms, log⟩) := by
  have hpl : pos < 2 ^ sizeBit := by omega
  have hle := h.le
  obtain ⟨r, hr, hre, h1, h2⟩ := h.elem hb
  have h3 := hw.pos _ _ (h.live r hr)
  have hes := h.ess
  rw [run_fun rfl (show funs _ = some f_tommy_arrayblk_ref from rfl)]
  unfold f_tommy_arrayblk_ref
  simp only [Stmt.list]
  csimp [arr_assert, hpl]
  rw [get_step h.rBlk h.cnt]
  csimp [hp]
  refine (bind_step (run_array_get ext _ h.seg hw (le_bits _) (by omega))).trans ?_
  try csimp
  rw [h.ix _ hb]
  have e : padd (base Bl (pos / 4096)) (pos % 4096) = baddr Bl ptrSize pos := Nat.mod_eq_of_lt (show baddr Bl ptrSize pos < _ by omega)
  rw [e]
  rfl

theorem run_arrayblk_size (s : CTy) {ms : List (Nat × (Nat → Nat))} {log : List BEvent} (h : BlkR w t blkCnt ptrSize n nb m R Bl) :
    run ext "tommy_arrayblk_size" [⟨.ptr s, t⟩] ⟨w, ms, log⟩ = some (⟨.usize, n⟩, ⟨w, ms, log⟩) := by
  rw [run_fun rfl (show funs _ = some f_tommy_arrayblk_size from rfl)]
  unfold f_tommy_arrayblk_size
  simp only [Stmt.list]
  csimp
  rw [get_step h.rBlk h.cnt]
  rfl

theorem run_arrayblk_usage (s : CTy) {ms : List (Nat × (Nat → Nat))} {log : List BEvent} (h : BlkR w t blkCnt ptrSize n nb m R Bl) (hl : Bl.length = nb) (hw : Ok w) :
    run ext "tommy_arrayblk_memory_usage" [⟨.ptr s, t⟩] ⟨w, ms, log⟩ = some (⟨.usize, ((R ++ Bl).map Prod.snd).sum⟩, ⟨w, ms, log⟩) := by
  have hs := sum_lt hw (R ++ Bl) h.nodup h.all
  have e1 : Bl.map Prod.snd = List.replicate nb (4096 * ptrSize) := by
    rw [List.eq_replicate_iff]
    refine ⟨by simp [hl], ?_⟩
    intro x hx
    rw [List.mem_map] at hx
    obtain ⟨r, hr, rfl⟩ := hx
    exact h.sz r hr
  rw [List.map_append, List.sum_append, e1, List.sum_replicate_nat] at hs ⊢
  rw [run_fun rfl (show funs _ = some f_tommy_arrayblk_memory_usage from rfl)]
  unfold f_tommy_arrayblk_memory_usage
  simp only [Stmt.list]
  csimp
  refine (bind_step (run_array_usage ext _ h.seg hw)).trans ?_
  try csimp
  refine (bind_step (run_array_size ext _ h.seg)).trans ?_
  try csimp
  have e2 : Tommy.sizeT ((R.map Prod.snd).sum + Tommy.sizeT (Tommy.sizeT (nb * 4096) * ptrSize)) = (R.map Prod.snd).sum + nb * (4096 * ptrSize) := by
    unfold Tommy.sizeT
    rw [Nat.mod_mul_mod, Nat.add_mod_mod, Nat.mul_assoc, Nat.mod_eq_of_lt hs]
  rw [e2]
  rfl

/-! ### init -/

theorem run_arrayblk_init (s : CTy) {mm : Nat × (Nat → Nat)} {rest : List (Nat × (Nat → Nat))} {log : List BEvent} (hs : InReg w t (blkCnt + ptrSize))
    (hf : Fresh w.live mm.1 (64 * ptrSize)) :
    run ext "tommy_arrayblk_init" [⟨.ptr s, t⟩] ⟨w, mm :: rest, log⟩ =
      some (⟨.void, 0⟩, ⟨setW (initW w t arrMax ptrSize mm.1) (t + blkCnt) ptrSize 0, rest, log ++ [.got mm.1 (64 * ptrSize)]⟩) := by
  have ho := blkOff
  have hlive : (initW w t arrMax ptrSize mm.1).live = upd w.live mm.1 (some (64 * ptrSize)) := by
    unfold initW
    rw [set_live, fill_live, set_live]; rfl
  have hs' : InReg (initW w t arrMax ptrSize mm.1) t (blkCnt + ptrSize) := InReg.setL (w := calW w mm.1 (64 * ptrSize)) hlive (hs.cal hf)
  rw [run_fun rfl (show funs _ = some f_tommy_arrayblk_init from rfl)]
  unfold f_tommy_arrayblk_init
  simp only [Stmt.list]
  csimp
  refine (bind_step (run_array_init ext _ (hs.sub (Nat.le_refl _) (by omega)) hf)).trans ?_
  try csimp
  rw [set_step (hs'.sub (by omega) (by omega))]
  rfl

theorem blkInit_spec (hs : InReg w t (blkCnt + ptrSize)) (hw : Ok w) {p : Nat} (hf : Fresh w.live p (64 * ptrSize))
    {w' : AMem} (e : w' = setW (initW w t arrMax ptrSize p) (t + blkCnt) ptrSize 0) :
    BlkR w' t blkCnt ptrSize 0 0 0 [(p, 64 * ptrSize)] [] ∧ Ok w' ∧ w'.live = upd w.live p (some (64 * ptrSize)) ∧
    ∀ x, x < t ∨ t + (blkCnt + ptrSize) ≤ x → x < p ∨ p + 64 * ptrSize ≤ x → w'.byte x = w.byte x := by
  have ho := blkOff
  have hp4 := p4
  have hfr := hs.fresh hf
  have hA : arrMax = ptrSize * sizeBit := rfl
  have hB : strB arrMax = arrMax + 2 * ptrSize + 4 := rfl
  have hO : blkCnt + ptrSize ≥ ptrSize := Nat.le_add_left _ _
  obtain ⟨h1, h2, h3, h4⟩ := init_spec (hs.sub (Nat.le_refl _) (by omega)) hw (o := arrMax) (Nat.le_refl _) (show 0 < ptrSize by omega) hf
  have hout : ∀ x, x < t + strB arrMax ∨ t + (blkCnt + ptrSize) ≤ x → w'.byte x = (initW w t arrMax ptrSize p).byte x := by
    intro x hx
    rw [e, set_out (by omega)]
  have hlive : w'.live = upd w.live p (some (64 * ptrSize)) := by
    rw [e]; exact h3
  have hstr : InReg w' t (blkCnt + ptrSize) := InReg.setL (w := calW w p (64 * ptrSize)) hlive (hs.cal hf)
  refine ⟨⟨?_, by simp, ho,
    by omega,
    hstr, ?_, by simp, by simp, by simp, by simp, ?_, by simp⟩, ?_, hlive,
    ?_⟩
  · rw [show bits 0 = 6 by decide]
    refine h1.congr (hstr.sub (Nat.le_refl _) (by omega)) ?_ ?_
    · intro r hr
      rw [hlive, ← h3]
      exact h1.live r hr
    · rintro x (hx | ⟨pos, _, k2, k3, k4⟩)
      · exact hout x (by omega)
      · obtain ⟨r, hr, _, h5, h6⟩ := h1.elem k2
        rw [List.mem_singleton] at hr
        subst hr
        dsimp only at h5 h6
        exact hout x (by omega)
  · rw [e]
    exact rd_set (Nat.two_pow_pos _)
  · intro r hr
    rw [List.append_nil, List.mem_singleton] at hr
    subst hr
    exact hfr
  · rw [e]
    exact ok_set h2 _ _ _
  · intro x hx1 hx2
    rw [hout x (by omega)]
    exact h4 x ⟨by omega, by simpa using hx2⟩

/-! ### done -/

/-- tommyarrayblk.c:43-46 -/
def blkDone : Stmt := .while (.bin .lt (.var "i") (.call "tommy_array_size" (.cons (.addr (.arrow (.var "array") "block")) .nil)))
  (.seq (.expr (.call "free" (.cons (.call "tommy_array_get" (.cons (.addr (.arrow (.var "array") "block")) (.cons (.var "i") .nil))) .nil)))
    (.expr (.assignOp .add (.var "i") (.num 1))))

theorem exec_blkDone {rest : List (Nat × (Nat → Nat))} {log : List BEvent} (h : BlkR w t blkCnt ptrSize n nb m R Bl) (hl : Bl.length = nb) (hw : Ok w) :
    exec structs ext (run ext) blkDone [("i", .usize, [some 0]), ("array", tBlk, [some t])] ⟨w, rest, log⟩ =
      some ((.normal, [("i", .usize, [some nb]), ("array", tBlk, [some t])]), ⟨freeW w Bl, rest, log ++ Bl.map fun x => BEvent.gave x.1⟩) := by
  obtain ⟨W, hW⟩ : ∃ W, W = blkDone := ⟨_, rfl⟩
  rw [← hW]
  unfold blkDone at hW
  have hnb := nb_lt h
  have key := blkDone_loop (fun i => exec structs ext (run ext) W [("i", .usize, [some i]), ("array", tBlk, [some t])])
    (Ctl.normal, [("i", .usize, [some nb]), ("array", tBlk, [some t])]) (rest := rest) h hl ?_ ?_ nb (i := 0) (log := log) (by omega)
  · rw [List.take_zero, freeW_nil] at key
    exact key
  · intro log
    try dsimp only
    have hs := h.freeSeg nb
    rw [← hl, List.take_length, hl] at hs
    rw [exec_while ext _ hW]
    csimp
    refine (bind_step (run_array_size ext _ hs)).trans ?_
    csimp [Nat.lt_irrefl]
    rfl
  · intro i log hi hlv
    have hs := h.freeSeg i
    have hss : Tommy.sizeT (i + 1) = i + 1 := Nat.mod_eq_of_lt (by omega)
    try dsimp only
    conv => lhs; rw [exec_while ext _ hW]
    csimp
    refine (bind_step (run_array_size ext _ hs)).trans ?_
    csimp [hss, hi]
    refine (bind_step (run_array_get ext _ hs (freeW_ok hw) (le_bits _) hi)).trans ?_
    have e : rdN (freeW w (Bl.take i)).byte (eaddr R ptrSize i) ptrSize = base Bl i := h.ix i (by omega)
    rw [e]
    csimp
    rw [free_step hlv]

theorem run_arrayblk_done (s : CTy) {rest : List (Nat × (Nat → Nat))} {log : List BEvent} (h : BlkR w t blkCnt ptrSize n nb m R Bl) (hl : Bl.length = nb) (hw : Ok w) :
    run ext "tommy_arrayblk_done" [⟨.ptr s, t⟩] ⟨w, rest, log⟩ =
      some (⟨.void, 0⟩, ⟨freeW w (Bl ++ R), rest, log ++ (Bl ++ R).map fun x => BEvent.gave x.1⟩) := by
  rw [run_fun rfl (show funs _ = some f_tommy_arrayblk_done from rfl)]
  unfold f_tommy_arrayblk_done
  have hd := exec_blkDone ext (rest := rest) (log := log) h hl hw
  have hs := h.freeSeg nb
  rw [← hl, List.take_length, hl] at hs
  generalize hG : Stmt.for _ _ _ _ = G
  simp only [Stmt.list]
  csimp
  rw [← hG, exec_for]
  unfold blkDone at hd
  generalize Stmt.while _ _ = W at hd ⊢
  csimp
  refine (bind_step hd).trans ?_
  try csimp
  refine (bind_step (run_array_done ext _ hs (freeW_ok hw))).trans ?_
  rw [freeW_freeW, List.append_assoc, ← List.map_append]
  rfl

/-! ### get, set, insert -/

theorem run_arrayblk_get (s : CTy) {ms : List (Nat × (Nat → Nat))} {log : List BEvent} {pos : Nat} (h : BlkR w t blkCnt ptrSize n nb m R Bl)
    (hw : Ok w) (hn : n < 2 ^ sizeBit) (hb : pos / 4096 < Bl.length) (hp : pos < n) :
    run ext "tommy_arrayblk_get" [⟨.ptr s, t⟩, ⟨.usize, pos⟩] ⟨w, ms, log⟩ =
      some (⟨.ptr .void, rdN w.byte (baddr Bl ptrSize pos) ptrSize⟩, ⟨w, ms, log⟩) := by
  rw [run_fun rfl (show funs _ = some f_tommy_arrayblk_get from rfl)]
  unfold f_tommy_arrayblk_get
  simp only [Stmt.list]
  csimp
  rw [bind_step (run_arrayblk_ref ext _ h hw hn hb hp)]
  csimp
  rw [get_step (h.inElem hb) rfl]
  rfl

theorem run_arrayblk_set (s s' : CTy) {ms : List (Nat × (Nat → Nat))} {log : List BEvent} {pos d : Nat} (h : BlkR w t blkCnt ptrSize n nb m R Bl)
    (hw : Ok w) (hn : n < 2 ^ sizeBit) (hb : pos / 4096 < Bl.length) (hp : pos < n) :
    run ext "tommy_arrayblk_set" [⟨.ptr s, t⟩, ⟨.usize, pos⟩, ⟨.ptr s', d⟩] ⟨w, ms, log⟩ =
      some (⟨.void, 0⟩, ⟨setW w (baddr Bl ptrSize pos) ptrSize d, ms, log⟩) := by
  rw [run_fun rfl (show funs _ = some f_tommy_arrayblk_set from rfl)]
  unfold f_tommy_arrayblk_set
  simp only [Stmt.list]
  csimp
  rw [bind_step (run_arrayblk_ref ext _ h hw hn hb hp)]
  csimp
  rw [set_step (h.inElem hb)]
  rfl

theorem run_arrayblk_insert (s s' : CTy) {m1 m2 rest : List (Nat × (Nat → Nat))} {log : List BEvent} {d : Nat} (h : BlkR w t blkCnt ptrSize n (blocks n) m R Bl)
    (hl : Bl.length = blocks n) (hw : Ok w) (hc : n + 1 < 2 ^ sizeBit) (hg1 : Given w.live (segAsks ptrSize (blocks n) (blocks (n + 1))) m1)
    (hg2 : Given (addRegs w.live (regs (segAsks ptrSize (blocks n) (blocks (n + 1))) m1)) (List.replicate (blocks (n + 1) - blocks n) (4096 * ptrSize)) m2) :
    ∃ w', run ext "tommy_arrayblk_insert" [⟨.ptr s, t⟩, ⟨.ptr s', d⟩] ⟨w, m1 ++ (m2 ++ rest), log⟩ =
      some (⟨.void, 0⟩, ⟨setW w' (baddr (Bl ++ regs (List.replicate (blocks (n + 1) - blocks n) (4096 * ptrSize)) m2) ptrSize n) ptrSize d, rest,
        log ++ (regs (segAsks ptrSize (blocks n) (blocks (n + 1))) m1 ++
        regs (List.replicate (blocks (n + 1) - blocks n) (4096 * ptrSize)) m2).map fun x => BEvent.got x.1 x.2⟩) ∧
      BGrown w t blkCnt ptrSize (n + 1) (blocks (n + 1)) m R Bl (regs (segAsks ptrSize (blocks n) (blocks (n + 1))) m1)
        (regs (List.replicate (blocks (n + 1) - blocks n) (4096 * ptrSize)) m2) w' := by
  obtain ⟨w', e, g⟩ := run_arrayblk_grow ext (.struct "tommy_arrayblk_struct") (rest := rest) (log := log) h hl hw hc hg1 hg2
  rw [Nat.max_eq_right (by omega)] at g
  refine ⟨w', ?_, g⟩
  have hlen : (Bl ++ regs (List.replicate (blocks (n + 1) - blocks n) (4096 * ptrSize)) m2).length = blocks (n + 1) := by
    have := given_len hg2
    have hb : blocks n ≤ blocks (n + 1) := by unfold blocks; omega
    unfold regs
    simp at this ⊢
    omega
  rw [run_fun rfl (show funs _ = some f_tommy_arrayblk_insert from rfl)]
  unfold f_tommy_arrayblk_insert
  simp only [Stmt.list]
  csimp
  rw [get_step h.rBlk h.cnt, show Tommy.sizeT (n + 1) = n + 1 from Nat.mod_eq_of_lt hc]
  rw [bind_step e, bind_step (run_arrayblk_set ext _ _ g.blk g.ok hc (by rw [hlen]; unfold blocks; omega) (by omega))]
  rfl

end Tommy.CArr
