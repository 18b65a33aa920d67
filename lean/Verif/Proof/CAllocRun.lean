import Verif.Spec.CAlloc
import Verif.Proof.AllocPool
import Verif.Proof.CArrFun
/-! The functions of tommyalloc. -/
set_option autoImplicit false
set_option linter.unusedSectionVars false
set_option linter.unusedSimpArgs false
namespace Tommy.C
open Src
variable [Arch]

@[csem] theorem field_alNext : field structs "tommy_allocator_entry_struct" "next" = some (.ptr (.struct "tommy_allocator_entry_struct"), 0) := by
  cases ‹Arch› <;> rfl
@[csem] theorem field_alFree : field structs "tommy_allocator_struct" "free_block" = some (.ptr (.struct "tommy_allocator_entry_struct"), 0) := by
  cases ‹Arch› <;> rfl
@[csem] theorem field_alSeg : field structs "tommy_allocator_struct" "used_segment" = some (.ptr (.struct "tommy_allocator_entry_struct"), ptrSize) := by
  cases ‹Arch› <;> rfl
@[csem] theorem field_alBs : field structs "tommy_allocator_struct" "block_size" = some (.usize, 2 * ptrSize) := by cases ‹Arch› <;> rfl
@[csem] theorem field_alAl : field structs "tommy_allocator_struct" "align_size" = some (.usize, 3 * ptrSize) := by cases ‹Arch› <;> rfl
@[csem] theorem field_alCnt : field structs "tommy_allocator_struct" "count" = some (.usize, 4 * ptrSize) := by cases ‹Arch› <;> rfl
@[csem] theorem size_alEntry : size structs (.struct "tommy_allocator_entry_struct") = some ptrSize := by cases ‹Arch› <;> rfl
@[csem] theorem size_alVoid : size structs (.ptr .void) = some ptrSize := by cases ‹Arch› <;> rfl
theorem size_alU8 : size structs .u8 = some 1 := by cases ‹Arch› <;> rfl

/-- A turn of a do while. -/
theorem exec_doWhile (ext : Ext) (call : String → List Val → BM Val) {W : Stmt} {c : Expr} {a : Stmt} (h : W = .doWhile a c) (e : Env) :
    exec structs ext call W e = (do
      let (r, e) ← exec structs ext call a e
      match r with
      | .normal => do
        let (x, e) ← eval structs ext call c e
        if x.v ≠ 0 then exec structs ext call W e else return (.normal, e)
      | .brk => return (.normal, e)
      | .ret v => return (.ret v, e)) := by
  subst h
  simp only [exec]
  conv => lhs; rw [loop.eq_1]
  simp only [bind_assoc]
  congr; funext r
  obtain ⟨r, e⟩ := r
  cases r
  · simp only [bind_assoc]
    congr; funext x
    split <;> simp only [pure_bind]
  · simp only [pure_bind]
  · simp only [pure_bind]

theorem mod_usizes (a b : Nat) (ha : a < 2 ^ sizeBit) (hb : b ≠ 0) : binop .mod ⟨.usize, a⟩ ⟨.usize, b⟩ = some ⟨.usize, a % b⟩ := by
  bin [hb]
  rw [Int.tmod_eq_emod_of_nonneg (by omega), ← Int.natCast_emod, toNat_mod, Nat.mod_eq_of_lt (Nat.lt_of_le_of_lt (Nat.mod_le _ _) ha)]

theorem sub_usizeT (a b : Nat) (hb : b ≤ 2 ^ sizeBit) : binop .sub ⟨.usize, a⟩ ⟨.usize, b⟩ = some ⟨.usize, subT a b⟩ := by
  bin []
  have : ((a : Int) - (b : Nat)) % (2 ^ sizeBit : Nat) = ((a + 2 ^ sizeBit - b : Nat) : Int) % (2 ^ sizeBit : Nat) := by
    rw [← Int.add_emod_right (a - _)]
    congr 1
    omega
  rw [this, toNat_mod]; rfl

theorem elem_u8 (a n : Nat) : elemAddr a 1 ⟨.usize, n⟩ = addT a n := by
  unfold elemAddr addT
  rw [int_usize, Int.natCast_one, Int.one_mul, toNat_add_mod]

end Tommy.C

namespace Tommy.CAl
open CAllocSpec CArr C C.Src
open CArraySpec (Ok InReg Fresh)
open HashFlat hiding Fresh
open AllocSpec (PoolInv Chain Room segSize realSize realAlign)
variable [Arch]

/-- The struct at `T`. -/
structure Str (w : AMem) (T : Nat) (t : Alloc) : Prop where
  reg : InReg w T (5 * ptrSize)
  fb : rdN w.byte T ptrSize = t.freeBlock
  seg : rdN w.byte (T + ptrSize) ptrSize = t.usedSegment
  bs : rdN w.byte (T + 2 * ptrSize) ptrSize = t.blockSize
  al : rdN w.byte (T + 3 * ptrSize) ptrSize = t.alignSize
  cnt : rdN w.byte (T + 4 * ptrSize) ptrSize = t.count

/-- The memory with the struct at `T`, and the rest as in `m`. -/
structure Sim (T : Nat) (m : AMem) (t : Alloc) (w : AMem) : Prop where
  str : Str w T t
  ok : Ok w
  live : w.live = m.live
  out : ∀ x, x < T ∨ T + 5 * ptrSize ≤ x → w.byte x = m.byte x

variable {T : Nat} {m w : AMem} {t : Alloc} {ms : List (Nat × (Nat → Nat))} {log : List BEvent}

theorem rd_lt {w : AMem} (h : Ok w) (p : Nat) : rdN w.byte p ptrSize < 2 ^ sizeBit := by
  have := HashFlat.rdN_bound h.byte ptrSize p
  rwa [eight_ptr] at this

theorem rd_setP {p v : Nat} (h : v < 2 ^ sizeBit) : rdN (setW w p ptrSize v).byte p ptrSize = v := rd_set (by rwa [eight_ptr])

section
variable (h : Sim T m t w)
include h

theorem Sim.r0 : InReg w T ptrSize := h.str.reg.sub (by omega) (by omega)
theorem Sim.r1 : InReg w (T + ptrSize) ptrSize := h.str.reg.sub (by omega) (by omega)
theorem Sim.r2 : InReg w (T + 2 * ptrSize) ptrSize := h.str.reg.sub (by omega) (by omega)
theorem Sim.r3 : InReg w (T + 3 * ptrSize) ptrSize := h.str.reg.sub (by omega) (by omega)
theorem Sim.r4 : InReg w (T + 4 * ptrSize) ptrSize := h.str.reg.sub (by omega) (by omega)
theorem Sim.fb_lt : t.freeBlock < 2 ^ sizeBit := h.str.fb ▸ rd_lt h.ok _
theorem Sim.seg_lt : t.usedSegment < 2 ^ sizeBit := h.str.seg ▸ rd_lt h.ok _
theorem Sim.bs_lt : t.blockSize < 2 ^ sizeBit := h.str.bs ▸ rd_lt h.ok _
theorem Sim.al_lt : t.alignSize < 2 ^ sizeBit := h.str.al ▸ rd_lt h.ok _
theorem Sim.cnt_lt : t.count < 2 ^ sizeBit := h.str.cnt ▸ rd_lt h.ok _

theorem Sim.set0 {v : Nat} (hv : v < 2 ^ sizeBit) : Sim T m { t with freeBlock := v } (setW w T ptrSize v) where
  str := ⟨h.str.reg.setL rfl, rd_setP hv, (rd_set_out (by omega)).trans h.str.seg, (rd_set_out (by omega)).trans h.str.bs,
    (rd_set_out (by omega)).trans h.str.al, (rd_set_out (by omega)).trans h.str.cnt⟩
  ok := ok_set h.ok _ _ _
  live := h.live
  out x hx := (set_out (by omega)).trans (h.out x hx)

theorem Sim.set1 {v : Nat} (hv : v < 2 ^ sizeBit) : Sim T m { t with usedSegment := v } (setW w (T + ptrSize) ptrSize v) where
  str := ⟨h.str.reg.setL rfl, (rd_set_out (by omega)).trans h.str.fb, rd_setP hv, (rd_set_out (by omega)).trans h.str.bs,
    (rd_set_out (by omega)).trans h.str.al, (rd_set_out (by omega)).trans h.str.cnt⟩
  ok := ok_set h.ok _ _ _
  live := h.live
  out x hx := (set_out (by omega)).trans (h.out x hx)

theorem Sim.set4 {v : Nat} (hv : v < 2 ^ sizeBit) : Sim T m { t with count := v } (setW w (T + 4 * ptrSize) ptrSize v) where
  str := ⟨h.str.reg.setL rfl, (rd_set_out (by omega)).trans h.str.fb, (rd_set_out (by omega)).trans h.str.seg,
    (rd_set_out (by omega)).trans h.str.bs, (rd_set_out (by omega)).trans h.str.al, rd_setP hv⟩
  ok := ok_set h.ok _ _ _
  live := h.live
  out x hx := (set_out (by omega)).trans (h.out x hx)

/-- A write out of the struct. -/
theorem Sim.write {q v : Nat} (hq : q + ptrSize ≤ T ∨ T + 5 * ptrSize ≤ q) :
    Sim T { m with byte := wrP m.byte q v } t (setW w q ptrSize v) where
  str := ⟨h.str.reg.setL rfl, (rd_set_out (by omega)).trans h.str.fb, (rd_set_out (by omega)).trans h.str.seg,
    (rd_set_out (by omega)).trans h.str.bs, (rd_set_out (by omega)).trans h.str.al, (rd_set_out (by omega)).trans h.str.cnt⟩
  ok := ok_set h.ok _ _ _
  live := h.live
  out x hx := by
    show wrN w.byte q ptrSize v x = wrP m.byte q v x
    unfold wrN wrP
    rw [h.out x hx]

theorem Sim.rd {q : Nat} (hq : q + ptrSize ≤ T ∨ T + 5 * ptrSize ≤ q) : rdN w.byte q ptrSize = rdP m.byte q :=
  AllocSpec.rdN_congr fun x h1 h2 => h.out x (by omega)

end

/-! ### init -/

theorem init_tail {bs al : Nat} (hb : bs < 2 ^ sizeBit) (ha : al < 2 ^ sizeBit) (hr : InReg w T (5 * ptrSize)) (hw : Ok w) :
    ∃ w', (do
        bset (T + 2 * ptrSize) bs
        bset (T + 3 * ptrSize) al
        bset (T + 4 * ptrSize) 0
        bset T 0
        bset (T + ptrSize) 0
        pure (⟨.void, 0⟩ : Val) : BM Val) ⟨w, ms, log⟩ = some (⟨.void, 0⟩, ⟨w', ms, log⟩) ∧ Sim T w ⟨0, 0, bs, al, 0⟩ w' := by
  have h0 := pow_pos'
  have hs : ∀ (w' : AMem), w'.live = w.live → ∀ o, o + ptrSize ≤ 5 * ptrSize → InReg w' (T + o) ptrSize := fun w' e o ho =>
    (hr.setL e).sub (by omega) (by omega)
  rw [set_step (hs _ rfl _ (by omega)), set_step (hs _ (by rfl) _ (by omega)), set_step (hs _ (by rfl) _ (by omega)),
    set_step (p := T) (hs _ (by rfl) 0 (by omega)), set_step (hs _ (by rfl) _ (by omega))]
  refine ⟨_, rfl, ⟨hr.setL rfl, ?_, ?_, ?_, ?_, ?_⟩, ?_, rfl, fun x hx => ?_⟩
  · rw [rd_set_out (by omega), rd_setP h0]
  · rw [rd_setP h0]
  · rw [rd_set_out (by omega), rd_set_out (by omega), rd_set_out (by omega), rd_set_out (by omega), rd_setP hb]
  · rw [rd_set_out (by omega), rd_set_out (by omega), rd_set_out (by omega), rd_setP ha]
  · rw [rd_set_out (by omega), rd_set_out (by omega), rd_setP h0]
  · exact ok_set (ok_set (ok_set (ok_set (ok_set hw _ _ _) _ _ _) _ _ _) _ _ _) _ _ _
  · rw [set_out (by omega), set_out (by omega), set_out (by omega), set_out (by omega), set_out (by omega)]

theorem ptr_pos : 0 < ptrSize := by arch

theorem ptr_lt : ptrSize < 2 ^ sizeBit := by arch

theorem ne_usize_lit (a n : Nat) (h : n < 2 ^ 31) : binop .ne ⟨.usize, a⟩ ⟨.s32, n⟩ = some (bool (a ≠ n)) := by bin [conv_usize_lit n h]

theorem run_init (ext : Ext) {bs al : Nat} (hb : bs < 2 ^ sizeBit) (ha : al < 2 ^ sizeBit) (hr : InReg w T (5 * ptrSize)) (hw : Ok w) :
    ∃ w', run ext "tommy_allocator_init" [pAl T, ⟨.usize, bs⟩, ⟨.usize, al⟩] ⟨w, ms, log⟩ = some (⟨.void, 0⟩, ⟨w', ms, log⟩) ∧
      Sim T w (allocatorInit bs al) w' := by
  have hp := ptr_pos
  have hpl := ptr_lt
  have h0 := pow_pos'
  rw [run_fun rfl (show funs _ = some f_tommy_allocator_init from rfl)]
  unfold f_tommy_allocator_init pAl allocatorInit
  simp only [Stmt.list]
  by_cases h1 : al < ptrSize
  · have hne : ptrSize ≠ 0 := by omega
    have hm : bs % ptrSize ≤ 2 ^ sizeBit := Nat.le_trans (Nat.mod_le _ _) (by omega)
    by_cases h2 : bs % ptrSize = 0
    · csimp [h1, mod_usizes bs ptrSize hb hne, sub_usizeT _ _ hm, ne_usize_lit, h2]
      exact init_tail hb hpl hr hw
    · csimp [h1, mod_usizes bs ptrSize hb hne, sub_usizeT _ _ hm, ne_usize_lit, h2]
      exact init_tail (Nat.mod_lt _ h0) hpl hr hw
  · have hne : al ≠ 0 := by omega
    have hm : bs % al ≤ 2 ^ sizeBit := Nat.le_trans (Nat.mod_le _ _) (by omega)
    by_cases h2 : bs % al = 0
    · csimp [h1, mod_usizes bs al hb hne, sub_usizeT _ _ hm, ne_usize_lit, h2]
      exact init_tail hb ha hr hw
    · csimp [h1, mod_usizes bs al hb hne, sub_usizeT _ _ hm, ne_usize_lit, h2]
      exact init_tail (Nat.mod_lt _ h0) ha hr hw

/-! ### usage and free -/

theorem run_usage (ext : Ext) (h : Sim T m t w) :
    run ext "tommy_allocator_memory_usage" [pAl T] ⟨w, ms, log⟩ = some (⟨.usize, allocatorMemoryUsage t⟩, ⟨w, ms, log⟩) := by
  rw [run_fun rfl (show funs _ = some f_tommy_allocator_memory_usage from rfl)]
  unfold f_tommy_allocator_memory_usage pAl
  simp only [Stmt.list]
  csimp
  rw [get_step h.r4 h.str.cnt, get_step h.r2 h.str.bs]
  rfl

theorem decT_subT {a : Nat} (h : a < 2 ^ sizeBit) : decT a = subT a 1 := (decT_mod a h).symm

theorem run_free (ext : Ext) (h : Sim T m t w) {p : Nat} (hr : InReg w p ptrSize) (hq : p + ptrSize ≤ T ∨ T + 5 * ptrSize ≤ p) (hp : p < 2 ^ sizeBit) :
    ∃ w', run ext "tommy_allocator_free" [pAl T, ⟨.ptr .void, p⟩] ⟨w, ms, log⟩ = some (⟨.void, 0⟩, ⟨w', ms, log⟩) ∧
      Sim T { m with byte := wrP m.byte p t.freeBlock } { t with freeBlock := p, count := subT t.count 1 } w' := by
  rw [run_fun rfl (show funs _ = some f_tommy_allocator_free from rfl)]
  unfold f_tommy_allocator_free pAl
  simp only [Stmt.list]
  csimp
  have h1 := h.write (v := t.freeBlock) hq
  have h2 := h1.set0 hp
  rw [get_step h.r0 h.str.fb, set_step hr, set_step h1.r0, get_step h2.r4 h2.str.cnt]
  csimp [dec_usize _ h.cnt_lt]
  rw [set_step h2.r4, decT_subT h.cnt_lt]
  exact ⟨_, rfl, h2.set4 (Nat.mod_lt _ pow_pos')⟩

/-! ### alloc -/

abbrev tEnt : CTy := .ptr (.struct "tommy_allocator_entry_struct")
abbrev tAl : CTy := .ptr (.struct "tommy_allocator_struct")

/-- tommyalloc.c:116-123 -/
def pushDo : Stmt := .doWhile
  (.block (.list [
    .declInit (.ptr (.struct "tommy_allocator_entry_struct")) "free_block" (.cast (.ptr (.struct "tommy_allocator_entry_struct")) (.var "data")),
    .expr (.assign (.arrow (.var "free_block") "next") (.arrow (.var "alloc") "free_block")),
    .expr (.assign (.arrow (.var "alloc") "free_block") (.var "free_block")),
    .expr (.assign (.var "data") (.addr (.index (.var "data") (.arrow (.var "alloc") "block_size")))),
    .expr (.assignOp .sub (.var "size") (.arrow (.var "alloc") "block_size"))]))
  (.bin .ge (.var "size") (.arrow (.var "alloc") "block_size"))

/-- The variables. -/
def pushEnv (T seg data size mis off : Nat) : Env :=
  [("segment", tEnt, [some seg]), ("data", .ptr .u8, [some data]), ("size", .usize, [some size]), ("mis", .usize, [some mis]),
   ("off", .usize, [some off]), ("ptr", .ptr .void, [none]), ("alloc", tAl, [some T])]

theorem exec_push (ext : Ext) {seg mis off bs : Nat} (hbs : ptrSize ≤ bs) : ∀ (n data size : Nat) (m w m' : AMem) (t t' : Alloc), Sim T m t w → t.blockSize = bs →
    size < (n + 1) * bs + bs → bs ≤ size → size < 2 ^ sizeBit → data + (n + 1) * bs < 2 ^ sizeBit → (∀ i, i ≤ n → InReg w (data + i * bs) ptrSize) →
    (data + (n + 1) * bs ≤ T ∨ T + 5 * ptrSize ≤ data) → allocatorPushLoop t data size m = some (t', m') →
    ∃ w' data' size', exec structs ext (run ext) pushDo (pushEnv T seg data size mis off) ⟨w, ms, log⟩ =
      some ((.normal, pushEnv T seg data' size' mis off), ⟨w', ms, log⟩) ∧ Sim T m' t' w' := by
  obtain ⟨W, hW⟩ : ∃ W, W = pushDo := ⟨_, rfl⟩
  rw [← hW]
  unfold pushDo at hW
  simp only [Stmt.list] at hW
  have turn : ∀ (data size : Nat) (m w m' : AMem) (t t' : Alloc), Sim T m t w → t.blockSize = bs → InReg w data ptrSize → data < 2 ^ sizeBit →
      (data + ptrSize ≤ T ∨ T + 5 * ptrSize ≤ data) → allocatorPushLoop t data size m = some (t', m') →
      ∃ w1 m1, w1.live = w.live ∧ Sim T m1 { t with freeBlock := data } w1 ∧
        exec structs ext (run ext) W (pushEnv T seg data size mis off) ⟨w, ms, log⟩ =
          (if bs ≤ subT size bs then exec structs ext (run ext) W (pushEnv T seg (addT data bs) (subT size bs) mis off)
          else pure (.normal, pushEnv T seg (addT data bs) (subT size bs) mis off)) ⟨w1, ms, log⟩ ∧
        (if bs ≤ subT size bs then allocatorPushLoop { t with freeBlock := data } (addT data bs) (subT size bs) m1 = some (t', m')
          else m' = m1 ∧ t' = { t with freeBlock := data }) := by
    intro data size m w m' t t' h hb hr hd hT e
    have h1 := h.write (v := t.freeBlock) hT
    have h2 := h1.set0 hd
    refine ⟨_, _, ?_, h2, ?_, ?_⟩
    · rfl
    · rw [exec_doWhile ext _ hW]
      unfold pushEnv
      csimp [size_alU8, elem_u8]
      rw [get_step h.r0 h.str.fb, set_step hr, set_step h1.r0, get_step h2.r2 h2.str.bs, get_step h2.r2 h2.str.bs]
      simp only [hb]
      rw [sub_usizeT _ _ (Nat.le_of_lt (hb ▸ h.bs_lt))]
      csimp
      rw [get_step h2.r2 h2.str.bs]
      simp only [hb]
    · have ha : m.acc data ptrSize = true := by
        have := (hr.setL (w' := m) h.live.symm).acc
        exact this
      rw [allocatorPushLoop] at e
      simp only [StateT.bind, bind, AllocSpec.writeP_run ha, Option.bind_some, hb] at e
      split at e
      · rename_i hc
        rw [if_pos hc]
        rw [← hb]; exact hb ▸ e
      · rename_i hc
        rw [if_neg hc]
        cases e; exact ⟨rfl, by rw [← hb]⟩
  intro n
  induction n with
  | zero =>
    intro data size m w m' t t' h hb hs hs0 hs' hd hin hT e
    have hr := hin 0 (by omega)
    rw [Nat.zero_mul, Nat.add_zero] at hr
    obtain ⟨w1, m1, hl, hS, e1, e2⟩ := turn data size m w m' t t' h hb hr (by omega) (by omega) e
    have hsub : subT size bs = size - bs := by unfold subT; arch
    rw [if_neg (by omega)] at e1 e2
    exact ⟨w1, _, _, e1, e2.1 ▸ e2.2 ▸ hS⟩
  | succ n ih =>
    intro data size m w m' t t' h hb hs hs0 hs' hd hin hT e
    have e0 : (n + 1 + 1) * bs = (n + 1) * bs + bs := by rw [Nat.add_mul (n + 1)]; omega
    rw [e0] at hs hd hT
    have hr := hin 0 (by omega)
    rw [Nat.zero_mul, Nat.add_zero] at hr
    obtain ⟨w1, m1, hl, hS, e1, e2⟩ := turn data size m w m' t t' h hb hr (by omega) (by omega) e
    have hsub : subT size bs = size - bs := by unfold subT; arch
    have hadd : addT data bs = data + bs := by unfold addT; exact Nat.mod_eq_of_lt (by omega)
    rw [hsub, hadd] at e1 e2
    by_cases hc : bs ≤ size - bs
    · rw [if_pos hc] at e1 e2
      obtain ⟨w', d', s', e3, hS'⟩ := ih (data + bs) (size - bs) m1 w1 m' _ t' hS hb (by omega) hc (by omega) (by omega) (fun i hi => by
        have := hin (i + 1) (by omega)
        rw [Nat.add_mul, Nat.one_mul] at this
        rw [show data + bs + i * bs = data + (i * bs + bs) by omega]
        exact this.setL hl) (by omega) e2
      exact ⟨w', d', s', e1.trans e3, hS'⟩
    · rw [if_neg hc] at e1 e2
      exact ⟨w1, _, _, e1, e2.1 ▸ e2.2 ▸ hS⟩

/-- tommyalloc.c:87-124 -/
def segBlock : Stmt := .block (.list [
  .decl .usize "off",
  .decl .usize "mis",
  .decl .usize "size",
  .decl (.ptr .u8) "data",
  .decl (.ptr (.struct "tommy_allocator_entry_struct")) "segment",
  .expr (.assign (.var "size") (.bin .sub (.num 4096) (.num 64))),
  .ite (.bin .lt (.var "size") (.bin .add (.bin .add (.sizeT (.struct "tommy_allocator_entry_struct")) (.arrow (.var "alloc") "align_size")) (.arrow (.var "alloc") "block_size")))
    (.expr (.assign (.var "size") (.bin .add (.bin .add (.sizeT (.struct "tommy_allocator_entry_struct")) (.arrow (.var "alloc") "align_size")) (.arrow (.var "alloc") "block_size"))))
    .skip,
  .expr (.assign (.var "data") (.call "malloc" (.cons (.var "size") .nil))),
  .expr (.assign (.var "segment") (.cast (.ptr (.struct "tommy_allocator_entry_struct")) (.var "data"))),
  .expr (.assign (.arrow (.var "segment") "next") (.arrow (.var "alloc") "used_segment")),
  .expr (.assign (.arrow (.var "alloc") "used_segment") (.var "segment")),
  .expr (.assign (.var "data") (.addr (.index (.var "data") (.sizeT (.struct "tommy_allocator_entry_struct"))))),
  .expr (.assign (.var "off") (.cast .usize (.var "data"))),
  .expr (.assign (.var "mis") (.bin .mod (.var "off") (.arrow (.var "alloc") "align_size"))),
  .ite (.bin .ne (.var "mis") (.num 0))
    (.block (.list [
      .expr (.assign (.var "data") (.addr (.index (.var "data") (.bin .sub (.arrow (.var "alloc") "align_size") (.var "mis"))))),
      .expr (.assignOp .sub (.var "size") (.bin .sub (.arrow (.var "alloc") "align_size") (.var "mis")))]))
    .skip,
  pushDo])

/-- The variables. -/
def allocEnv (T : Nat) : Env := [("ptr", .ptr .void, [none]), ("alloc", tAl, [some T])]

theorem size4032 : binop .sub ⟨.s32, 4096⟩ ⟨.s32, 64⟩ = some ⟨.s32, 4032⟩ := by
  simp only [binop, promote, common, Option.bind_eq_bind, Option.bind_some, conv_same, arith, CTy.isPtr]
  rfl

theorem conv_addT (t : CTy) (a b : Nat) : conv .usize ⟨.ptr t, addT a b⟩ = ⟨.usize, addT a b⟩ := by
  unfold conv
  rw [if_neg nofun, if_neg (fun h => nomatch h.1), int_ptr, toNat_mod]
  exact congrArg _ (Nat.mod_eq_of_lt (Nat.mod_lt _ pow_pos'))

/-- `n` bytes allocated at `b` with malloc(). -/
def malW (w : AMem) (b : Nat) (c : Nat → Nat) (n : Nat) : AMem :=
  { live := upd w.live b (some n), byte := fun x => if b ≤ x ∧ x < b + n then c x else w.byte x }

theorem malloc_step {α : Type} {n : Nat} {x : Nat × (Nat → Nat)} {f : Nat → BM α} :
    (bmalloc n >>= f) ⟨w, x :: ms, log⟩ = f x.1 ⟨malW w x.1 x.2 n, ms, log ++ [.got x.1 n]⟩ := rfl

theorem ok_mal {b n : Nat} {c : Nat → Nat} (h : Ok w) (hc : ∀ x, c x < 256) (hf : Fresh w.live b n) : Ok (malW w b c n) where
  byte x := by
    unfold malW
    dsimp only
    split
    · exact hc x
    · exact h.byte x
  pos := (ok_cal h hf).pos
  reg := (ok_cal h hf).reg

theorem mal_out {b n x : Nat} {c : Nat → Nat} (h : x < b ∨ b + n ≤ x) : (malW w b c n).byte x = w.byte x := if_neg (by omega)

theorem Sim.mal {b n : Nat} {c : Nat → Nat} (h : Sim T m t w) (hc : ∀ x, c x < 256) (hf : Fresh w.live b n) : Sim T (malW m b c n) t (malW w b c n) where
  str := by
    have hd := h.str.reg.fresh hf
    have hr : ∀ o, o + ptrSize ≤ 5 * ptrSize → rdN (malW w b c n).byte (T + o) ptrSize = rdN w.byte (T + o) ptrSize := fun o ho =>
      AllocSpec.rdN_congr fun x h1 h2 => mal_out (by omega)
    exact ⟨h.str.reg.cal hf, (hr 0 (by omega)).trans h.str.fb, (hr _ (by omega)).trans h.str.seg, (hr _ (by omega)).trans h.str.bs,
      (hr _ (by omega)).trans h.str.al, (hr _ (by omega)).trans h.str.cnt⟩
  ok := ok_mal h.ok hc hf
  live := by show upd w.live _ _ = upd m.live _ _; rw [h.live]
  out x hx := by
    show (if _ then _ else _) = (if _ then _ else _)
    rw [h.out x hx]

section
variable (ext : Ext) {base S : Nat} {content : Nat → Nat} {rest : List (Nat × (Nat → Nat))} {t' : Alloc} {m' : AMem}

theorem seg_tail (W : Stmt) (h : Sim T m t w) (hbs : ptrSize ≤ t.blockSize) (hal : ptrSize ≤ t.alignSize)
    (hfit : ptrSize + t.alignSize + t.blockSize < 2 ^ sizeBit) (hS : S = segSize t.blockSize t.alignSize) (hf : Fresh w.live base S)
    (hc : ∀ x, content x < 256) (hroom : Room 0 t.blockSize t.alignSize base) (e : allocatorSegment 0 base content t m = some (t', m'))
    (hW : ∀ seg mis off n data size m w t, Sim T m t w → ptrSize ≤ t.blockSize →
      size < (n + 1) * t.blockSize + t.blockSize → t.blockSize ≤ size → size < 2 ^ sizeBit → data + (n + 1) * t.blockSize < 2 ^ sizeBit →
      (∀ i, i ≤ n → InReg w (data + i * t.blockSize) ptrSize) →
      (data + (n + 1) * t.blockSize ≤ T ∨ T + 5 * ptrSize ≤ data) → allocatorPushLoop t data size m = some (t', m') →
      ∃ w' data' size', exec structs ext (run ext) W (pushEnv T seg data size mis off) ⟨w, rest, log ++ [.got base S]⟩ =
        some ((.normal, pushEnv T seg data' size' mis off), ⟨w', rest, log ++ [.got base S]⟩) ∧ Sim T m' t' w') :
    ∃ w', (do
      let x ← bmalloc S
      let x_2 ← bget (T + ptrSize)
      bset x x_2
      bset (T + ptrSize) x
      let x_5 ← bget (T + 3 * ptrSize)
      let x_6 ← lift (binop Bin.mod ⟨.usize, addT x ptrSize⟩ ⟨.usize, x_5⟩)
      if (conv CTy.usize x_6).v = 0 then do
        let __x ← exec structs ext (run ext) W
          [("segment", (CTy.struct "tommy_allocator_entry_struct").ptr, [some x]),
            ("data", CTy.u8.ptr, [some (addT x ptrSize)]), ("size", CTy.usize, [some S]),
            ("mis", CTy.usize, [some (conv CTy.usize x_6).v]),
            ("off", CTy.usize, [some (addT x ptrSize)]),
            ("ptr", CTy.void.ptr, [none]), ("alloc", tAl, [some T])]
        pure (__x.1, List.drop (List.length __x.2 - 2) __x.2)
      else do
        let x_7 ← bget (T + 3 * ptrSize)
        let x_8 ← lift (binop Bin.sub ⟨.usize, x_7⟩ ⟨.usize, (conv CTy.usize x_6).v⟩)
        let x_9 ← bget (T + 3 * ptrSize)
        let x_10 ← lift (binop Bin.sub ⟨.usize, x_9⟩ ⟨.usize, (conv CTy.usize x_6).v⟩)
        let x_11 ← lift (binop Bin.sub ⟨.usize, S⟩ x_10)
        let __x ← exec structs ext (run ext) W
          [("segment", (CTy.struct "tommy_allocator_entry_struct").ptr, [some x]),
            ("data", CTy.u8.ptr, [some (elemAddr (addT x ptrSize) 1 x_8)]), ("size", CTy.usize, [some (conv CTy.usize x_11).v]),
            ("mis", CTy.usize, [some (conv CTy.usize x_6).v]),
            ("off", CTy.usize, [some (addT x ptrSize)]),
            ("ptr", CTy.void.ptr, [none]), ("alloc", tAl, [some T])]
        pure (__x.1, List.drop (List.length __x.2 - 2) __x.2) : BM (Ctl × Env)) ⟨w, (base, content) :: rest, log⟩ =
      some ((.normal, [("ptr", CTy.void.ptr, [none]), ("alloc", tAl, [some T])]), ⟨w', rest, log ++ [.got base S]⟩) ∧ Sim T m' t' w' := by
  have hd := h.str.reg.fresh hf
  have hge := AllocSpec.segSize_ge t.blockSize t.alignSize
  rw [← hS] at hge
  have hp := ptr_pos
  have hlt := hf.lt
  have hpad := AllocSpec.pad_lt (base := base) hal
  unfold Room at hroom
  rw [← hS] at hroom
  have h1 := h.mal hc hf
  have hr1 : InReg (malW w base content S) base S := ⟨base, S, upd_same _ _ _, Nat.le_refl _, Nat.le_refl _⟩
  have h2 := h1.write (q := base) (v := t.usedSegment) (by omega)
  have h3 := h2.set1 (v := base) (by omega)
  rw [malloc_step]
  dsimp only
  rw [get_step h1.r1 h1.str.seg, set_step (hr1.sub (by omega) (by omega)), set_step h2.r1, get_step (v := t.alignSize) h3.r3 h3.str.al]
  have hal0 : t.alignSize ≠ 0 := by omega
  have hadd : addT base ptrSize = base + ptrSize := Nat.mod_eq_of_lt (by omega)
  rw [hadd, mod_usizes _ _ (by omega) hal0]
  simp only [lift_some, pure_bind, conv_same]
  -- the model
  have e1 : addT (addT ptrSize t.alignSize) t.blockSize = ptrSize + t.alignSize + t.blockSize := by
    unfold addT; rw [Nat.mod_eq_of_lt (a := ptrSize + _) (by omega), Nat.mod_eq_of_lt (by omega)]
  have e2 : (if allocatorBlockSize < ptrSize + t.alignSize + t.blockSize then ptrSize + t.alignSize + t.blockSize else allocatorBlockSize) = S := by
    rw [hS]; unfold AllocSpec.segSize allocatorBlockSize; split <;> omega
  have e4 : amalloc 0 base content S m = some (base, malW m base content S) := rfl
  have ha : (malW m base content S).acc base ptrSize = true := AllocSpec.acc_of (upd_same _ _ _) (Nat.le_refl _) (by omega)
  unfold allocatorSegment at e
  simp only [e1, e2, hadd, StateT.bind, bind, e4, Option.bind_some, AllocSpec.writeP_run ha] at e
  have hpd : AllocSpec.pad t.alignSize base = if (base + ptrSize) % t.alignSize = 0 then 0 else t.alignSize - (base + ptrSize) % t.alignSize := rfl
  have hml := Nat.mod_lt (base + ptrSize) (Nat.pos_of_ne_zero hal0)
  generalize AllocSpec.pad t.alignSize base = pd at *
  have hn1 : 0 < (S - pd) / t.blockSize := Nat.div_pos (by omega) (by omega)
  obtain ⟨n, hn⟩ : ∃ n, (S - pd) / t.blockSize = n + 1 := ⟨(S - pd) / t.blockSize - 1, by omega⟩
  have hdm := Nat.div_add_mod (S - pd) t.blockSize
  have hml2 := Nat.mod_lt (S - pd) (show t.blockSize > 0 by omega)
  rw [hn] at hdm hroom
  rw [Nat.mul_comm] at hdm
  have key := fun seg mis off => hW seg mis off n (base + ptrSize + pd) (S - pd) _ _ _ h3 hbs (by dsimp only; omega) (by dsimp only; omega) (by omega)
    (by dsimp only; omega) (fun i hi => by
      have := AllocSpec.mul_le_mul_lt (bs := t.blockSize) (show i < n + 1 by omega)
      exact (hr1.setL rfl).sub (by dsimp only; omega) (by dsimp only; omega)) (by dsimp only; omega)
  by_cases hmis : (base + ptrSize) % t.alignSize = 0
  · rw [if_pos hmis] at hpd
    subst hpd
    rw [if_neg (by omega)] at e
    rw [if_pos hmis]
    obtain ⟨w', d', s', ee, hs⟩ := key base ((base + ptrSize) % t.alignSize) (base + ptrSize) e
    exact ⟨w', (bind_step ee).trans rfl, hs⟩
  · rw [if_neg hmis] at hpd
    rw [if_pos hmis] at e
    have hsub : subT t.alignSize ((base + ptrSize) % t.alignSize) = pd := by
      rw [hpd]; unfold subT
      have := h.al_lt
      rw [show t.alignSize + 2 ^ sizeBit - (base + ptrSize) % t.alignSize = t.alignSize - (base + ptrSize) % t.alignSize + 2 ^ sizeBit by omega,
        Nat.add_mod_right, Nat.mod_eq_of_lt (by omega)]
    have hadd2 : addT (base + ptrSize) pd = base + ptrSize + pd := Nat.mod_eq_of_lt (by omega)
    have hsub2 : subT S pd = S - pd := by
      unfold subT
      rw [show S + 2 ^ sizeBit - pd = S - pd + 2 ^ sizeBit by omega, Nat.add_mod_right, Nat.mod_eq_of_lt (by omega)]
    rw [hsub, hadd2, hsub2] at e
    rw [if_neg hmis, get_step (v := t.alignSize) h3.r3 h3.str.al]
    rw [sub_usizeT _ _ (by omega)]
    simp only [lift_some, pure_bind]
    rw [get_step (v := t.alignSize) h3.r3 h3.str.al]
    rw [sub_usizeT _ _ (by omega), hsub]
    simp only [lift_some, pure_bind]
    rw [sub_usizeT _ _ (by omega), hsub2, elem_u8, hadd2]
    simp only [lift_some, pure_bind, conv_same]
    obtain ⟨w', d', s', ee, hs⟩ := key base ((base + ptrSize) % t.alignSize) (base + ptrSize) e
    exact ⟨w', (bind_step ee).trans rfl, hs⟩

theorem exec_seg (h : Sim T m t w) (hbs : ptrSize ≤ t.blockSize) (hal : ptrSize ≤ t.alignSize)
    (hfit : ptrSize + t.alignSize + t.blockSize < 2 ^ sizeBit) (hS : S = segSize t.blockSize t.alignSize) (hf : Fresh w.live base S)
    (hc : ∀ x, content x < 256) (hroom : Room 0 t.blockSize t.alignSize base) (e : allocatorSegment 0 base content t m = some (t', m')) :
    ∃ w', exec structs ext (run ext) segBlock (allocEnv T) ⟨w, (base, content) :: rest, log⟩ =
      some ((.normal, allocEnv T), ⟨w', rest, log ++ [.got base S]⟩) ∧ Sim T m' t' w' := by
  have hW := fun W (ew : W = pushDo) => seg_tail (log := log) (rest := rest) ext W h hbs hal hfit hS hf hc hroom e (fun seg mis off n data size m w t h hb h1 h2 h3 h4 h5 h6 h7 => by
    rw [ew]
    exact exec_push (T := T) (ms := rest) (log := log ++ [.got base S]) ext (seg := seg) (mis := mis) (off := off) hb n data size m w m' t t' h rfl h1 h2 h3 h4 h5 h6 h7)
  unfold segBlock allocEnv
  obtain ⟨W, hWe⟩ : ∃ W, W = pushDo := ⟨_, rfl⟩
  rw [← hWe]
  have hW := hW W hWe
  clear hWe
  simp only [Stmt.list]
  csimp [size_alU8, elem_u8, size4032, conv_addT]
  have e1 : Tommy.sizeT (Tommy.sizeT (ptrSize + t.alignSize) + t.blockSize) = ptrSize + t.alignSize + t.blockSize := by
    unfold Tommy.sizeT; rw [Nat.mod_eq_of_lt (a := ptrSize + _) (by omega), Nat.mod_eq_of_lt (by omega)]
  rw [get_step h.r3 h.str.al, get_step h.r2 h.str.bs, e1]
  by_cases hc : 4032 < ptrSize + t.alignSize + t.blockSize
  · rw [if_pos hc, get_step h.r3 h.str.al, get_step h.r2 h.str.bs, e1, show ptrSize + t.alignSize + t.blockSize = S by rw [hS]; unfold AllocSpec.segSize; omega]
    exact hW
  · rw [if_neg hc]
    have : (4032 : Nat) = S := by rw [hS]; unfold AllocSpec.segSize; omega
    rw [this]
    exact hW

end

theorem alloc_tail (h : Sim T m t w) (hr : InReg w t.freeBlock ptrSize) (hq : t.freeBlock + ptrSize ≤ T ∨ T + 5 * ptrSize ≤ t.freeBlock) :
    ∃ w', (do
        let x ← bget T
        let x_1 ← bget T
        let x_2 ← bget x_1
        bset T x_2
        let x_4 ← bget (T + 4 * ptrSize)
        bset (T + 4 * ptrSize) (Tommy.sizeT (x_4 + 1))
        pure (⟨CTy.void.ptr, x⟩ : Val) : BM Val) ⟨w, ms, log⟩ = some (⟨.ptr .void, t.freeBlock⟩, ⟨w', ms, log⟩) ∧
      Sim T m { t with freeBlock := rdP m.byte t.freeBlock, count := addT t.count 1 } w' := by
  have e := h.rd hq
  have h1 := h.set0 (e ▸ rd_lt h.ok _)
  rw [get_step h.r0 h.str.fb, get_step h.r0 h.str.fb, get_step hr e, set_step h.r0, get_step h1.r4 h1.str.cnt, set_step h1.r4]
  exact ⟨_, rfl, h1.set4 (Nat.mod_lt _ pow_pos')⟩

theorem run_alloc_old (ext : Ext) (h : Sim T m t w) (h0 : t.freeBlock ≠ 0) (hr : InReg w t.freeBlock ptrSize)
    (hq : t.freeBlock + ptrSize ≤ T ∨ T + 5 * ptrSize ≤ t.freeBlock) :
    ∃ w', run ext "tommy_allocator_alloc" [pAl T] ⟨w, ms, log⟩ = some (⟨.ptr .void, t.freeBlock⟩, ⟨w', ms, log⟩) ∧
      Sim T m { t with freeBlock := rdP m.byte t.freeBlock, count := addT t.count 1 } w' := by
  rw [run_fun rfl (show funs _ = some f_tommy_allocator_alloc from rfl)]
  unfold f_tommy_allocator_alloc pAl
  generalize Stmt.block _ = W
  simp only [Stmt.list]
  csimp
  rw [get_step h.r0 h.str.fb, if_neg h0]
  exact alloc_tail h hr hq

theorem run_alloc_new (ext : Ext) {base S : Nat} {content : Nat → Nat} {rest : List (Nat × (Nat → Nat))} {t' : Alloc} {m' : AMem} (h : Sim T m t w)
    (h0 : t.freeBlock = 0) (hbs : ptrSize ≤ t.blockSize) (hal : ptrSize ≤ t.alignSize)
    (hfit : ptrSize + t.alignSize + t.blockSize < 2 ^ sizeBit) (hS : S = segSize t.blockSize t.alignSize) (hf : Fresh w.live base S)
    (hc : ∀ x, content x < 256) (hroom : Room 0 t.blockSize t.alignSize base) (e : allocatorSegment 0 base content t m = some (t', m'))
    (hr : InReg m' t'.freeBlock ptrSize) (hq : t'.freeBlock + ptrSize ≤ T ∨ T + 5 * ptrSize ≤ t'.freeBlock) :
    ∃ w', run ext "tommy_allocator_alloc" [pAl T] ⟨w, (base, content) :: rest, log⟩ = some (⟨.ptr .void, t'.freeBlock⟩, ⟨w', rest, log ++ [.got base S]⟩) ∧
      Sim T m' { t' with freeBlock := rdP m'.byte t'.freeBlock, count := addT t'.count 1 } w' := by
  obtain ⟨w1, e1, h1⟩ := exec_seg (rest := rest) (log := log) ext h hbs hal hfit hS hf hc hroom e
  obtain ⟨w2, e2, h2⟩ := alloc_tail (ms := rest) (log := log ++ [.got base S]) h1 (hr.setL h1.live) hq
  refine ⟨w2, ?_, h2⟩
  rw [← e2]
  rw [run_fun rfl (show funs _ = some f_tommy_allocator_alloc from rfl)]
  unfold f_tommy_allocator_alloc pAl
  unfold segBlock pushDo allocEnv at e1
  generalize Stmt.block _ = W at e1 ⊢
  simp only [Stmt.list]
  csimp
  rw [get_step h.r0 h.str.fb, if_pos h0]
  refine (bind_step e1).trans ?_
  csimp

/-! ### done -/

/-- tommyalloc.c:65-69 -/
def resetWhile : Stmt := .while (.var "block")
  (.block (.list [
    .declInit (.ptr (.struct "tommy_allocator_entry_struct")) "block_next" (.arrow (.var "block") "next"),
    .expr (.call "free" (.cons (.var "block") .nil)),
    .expr (.assign (.var "block") (.var "block_next"))]))

/-- The memory without the regions `l`. -/
def freeW (w : AMem) : List Nat → AMem
  | [] => w
  | b :: l => freeW { w with live := upd w.live b none } l

theorem exec_reset (ext : Ext) : ∀ (l : List Nat) (p : Nat) (w : AMem) (log : List BEvent), AllocSpec.Chain w.byte p l → l.Nodup →
    (∀ b ∈ l, ∃ n, w.live b = some n ∧ ptrSize ≤ n) →
    exec structs ext (run ext) resetWhile [("block", tEnt, [some p]), ("alloc", tAl, [some T])] ⟨w, ms, log⟩ =
      some ((.normal, [("block", tEnt, [some 0]), ("alloc", tAl, [some T])]), ⟨freeW w l, ms, log ++ l.map BEvent.gave⟩) := by
  obtain ⟨W, hW⟩ : ∃ W, W = resetWhile := ⟨_, rfl⟩
  rw [← hW]
  unfold resetWhile at hW
  simp only [Stmt.list] at hW
  intro l
  induction l with
  | nil =>
    intro p w log h _ _
    simp only [AllocSpec.Chain] at h
    subst h
    rw [exec_while ext _ hW]
    csimp
    simp [freeW]
  | cons x xs ih =>
    intro p w log h hn hl
    obtain ⟨rfl, h0, h⟩ := h
    obtain ⟨n, h1, h2⟩ := hl p (by simp)
    have hn := List.nodup_cons.1 hn
    have e := ih (rdP w.byte p) { w with live := upd w.live p none } (log ++ [.gave p]) h hn.2 (fun b hb => by
      have hne : b ≠ p := fun e => hn.1 (e ▸ hb)
      simp only; rw [upd_ne hne]; exact hl b (by simp [hb]))
    rw [exec_while ext _ hW]
    csimp [h0]
    rw [get_step (v := rdP w.byte p) ⟨p, n, h1, Nat.le_refl _, by omega⟩ rfl, free_step h1]
    refine e.trans ?_
    rw [List.append_assoc]
    rfl

theorem freeW_byte : ∀ (l : List Nat) (w : AMem), (freeW w l).byte = w.byte := by
  intro l
  induction l with
  | nil => intro w; rfl
  | cons b l ih => intro w; exact ih _

theorem freeW_live : ∀ (l : List Nat) (w : AMem) (b : Nat), (freeW w l).live b = if b ∈ l then none else w.live b := by
  intro l
  induction l with
  | nil => intro w b; simp [freeW]
  | cons c l ih =>
    intro w b
    show (freeW _ l).live b = _
    rw [ih]
    by_cases h : b = c
    · subst h; simp [upd_same]
    · simp [h, upd_ne h]

theorem ok_freeW (l : List Nat) (h : Ok w) : Ok (freeW w l) where
  byte x := by rw [freeW_byte]; exact h.byte x
  pos b n e := by
    rw [freeW_live] at e
    split at e
    · cases e
    · exact h.pos b n e
  reg b n b' n' e e' hne := by
    rw [freeW_live] at e e'
    split at e
    · cases e
    split at e'
    · cases e'
    exact h.reg b n b' n' e e' hne

theorem run_done (ext : Ext) {l : List Nat} (h : Sim T m t w) (hch : AllocSpec.Chain m.byte t.usedSegment l) (hn : l.Nodup)
    (hl : ∀ b ∈ l, ∃ n, m.live b = some n ∧ ptrSize ≤ n) (hd : ∀ b ∈ l, b + ptrSize ≤ T ∨ T + 5 * ptrSize ≤ b) (hr : InReg (freeW m l) T (5 * ptrSize)) :
    ∃ w', run ext "tommy_allocator_done" [pAl T] ⟨w, ms, log⟩ = some (⟨.void, 0⟩, ⟨w', ms, log ++ l.map BEvent.gave⟩) ∧
      Sim T (freeW m l) { t with count := 0, freeBlock := 0, usedSegment := 0 } w' := by
  have hlive : (freeW w l).live = (freeW m l).live := by funext b; rw [freeW_live, freeW_live, h.live]
  have h1 : Sim T (freeW m l) t (freeW w l) := by
    refine ⟨⟨hr.setL hlive, ?_, ?_, ?_, ?_, ?_⟩, ok_freeW l h.ok, hlive, ?_⟩
    all_goals simp only [freeW_byte]
    · exact h.str.fb
    · exact h.str.seg
    · exact h.str.bs
    · exact h.str.al
    · exact h.str.cnt
    · exact h.out
  have e1 := exec_reset (T := T) (ms := ms) ext l t.usedSegment w log (hch.congr fun q hq => h.rd (hd q hq)) hn (fun b hb => h.live ▸ hl b hb)
  have h2 := h1.set4 pow_pos'
  have h3 := h2.set0 pow_pos'
  have h4 := h3.set1 pow_pos'
  refine ⟨_, ?_, h4⟩
  have e2 : run ext "allocator_reset" [pAl T] ⟨w, ms, log⟩ = some (⟨.void, 0⟩,
      ⟨setW (setW (setW (freeW w l) (T + 4 * ptrSize) ptrSize 0) T ptrSize 0) (T + ptrSize) ptrSize 0, ms, log ++ l.map BEvent.gave⟩) := by
    rw [run_fun rfl (show funs _ = some f_allocator_reset from rfl)]
    unfold f_allocator_reset pAl
    unfold resetWhile at e1
    generalize Stmt.while _ _ = W at e1 ⊢
    simp only [Stmt.list]
    csimp
    rw [get_step h.r1 h.str.seg]
    refine (bind_step e1).trans ?_
    csimp
    rw [set_step h1.r4, set_step h2.r0, set_step h3.r1]
    rfl
  rw [run_fun rfl (show funs _ = some f_tommy_allocator_done from rfl)]
  unfold f_tommy_allocator_done pAl
  simp only [Stmt.list]
  csimp
  exact (bind_step e2).trans rfl

end Tommy.CAl
