import Verif.Proof.CAllocInv
/-! The segment that is too small: the text of the allocator writes out of it. -/
set_option autoImplicit false
set_option linter.unusedSectionVars false
set_option linter.unusedSimpArgs false
namespace Tommy.CAl
open CAllocSpec CArr C C.Src
open CArraySpec (Ok InReg Fresh)
open HashFlat hiding Fresh
open AllocSpec (PoolInv Pool)
variable [Arch]
variable {T : Nat} {m w : AMem} {t : Alloc} {ms : List (Nat × (Nat → Nat))} {log : List BEvent}

theorem bind_none {α β : Type} {x : BM α} {f : α → BM β} {s : BMem} (h : x s = none) : (x >>= f) s = none := by
  show (x s).bind _ = none
  rw [h]; rfl

theorem set_none {α : Type} {p v : Nat} {f : Unit → BM α} (h : w.acc p ptrSize ≠ true) : (bset p v >>= f) ⟨w, ms, log⟩ = none := by
  refine bind_none ?_
  unfold bset bsetN
  rw [if_neg (by exact h)]

/-- The block `n` is out of the memory. -/
theorem push_none (ext : Ext) {seg mis off bs : Nat} : ∀ (n data size : Nat) (m w : AMem) (t : Alloc), Sim T m t w → t.blockSize = bs →
    (n + 1) * bs ≤ size → size < 2 ^ sizeBit → data + n * bs < 2 ^ sizeBit → (∀ i, i < n → InReg w (data + i * bs) ptrSize) →
    w.acc (data + n * bs) ptrSize ≠ true → (∀ i, i < n → data + i * bs + ptrSize ≤ T ∨ T + 5 * ptrSize ≤ data + i * bs) →
    exec structs ext (run ext) pushDo (pushEnv T seg data size mis off) ⟨w, ms, log⟩ = none := by
  obtain ⟨W, hW⟩ : ∃ W, W = pushDo := ⟨_, rfl⟩
  rw [← hW]
  unfold pushDo at hW
  simp only [Stmt.list] at hW
  intro n
  induction n with
  | zero =>
    intro data size m w t h hb hs hs' hd hin hout hT
    rw [Nat.zero_mul, Nat.add_zero] at hout
    rw [exec_doWhile ext _ hW]
    unfold pushEnv
    csimp [size_alU8, elem_u8]
    rw [get_step h.r0 h.str.fb, set_none hout]
  | succ n ih =>
    intro data size m w t h hb hs hs' hd hin hout hT
    have e0 : (n + 1 + 1) * bs = (n + 1) * bs + bs := by rw [Nat.add_mul (n + 1)]; omega
    have e1 : (n + 1) * bs = n * bs + bs := by rw [Nat.add_mul, Nat.one_mul]
    rw [e0] at hs
    have hr := hin 0 (by omega)
    have hT0 := hT 0 (by omega)
    rw [Nat.zero_mul, Nat.add_zero] at hr hT0
    have h1 := h.write (v := t.freeBlock) hT0
    have h2 := h1.set0 (v := data) (by omega)
    rw [exec_doWhile ext _ hW]
    unfold pushEnv
    csimp [size_alU8, elem_u8]
    rw [get_step h.r0 h.str.fb, set_step hr, set_step h1.r0, get_step h2.r2 h2.str.bs, get_step h2.r2 h2.str.bs]
    simp only [hb]
    rw [sub_usizeT _ _ (Nat.le_of_lt (hb ▸ h.bs_lt))]
    csimp
    rw [get_step h2.r2 h2.str.bs]
    simp only [hb]
    have hsub : subT size bs = size - bs := by unfold subT; arch
    have hadd : addT data bs = data + bs := by unfold addT; exact Nat.mod_eq_of_lt (by omega)
    rw [hsub, hadd, if_pos (by omega)]
    refine ih (data + bs) (size - bs) _ _ _ h2 hb (by omega) (by omega) (by omega) (fun i hi => ?_) ?_ (fun i hi => ?_)
    · have := hin (i + 1) (by omega)
      rw [Nat.add_mul, Nat.one_mul] at this
      rw [show data + bs + i * bs = data + (i * bs + bs) by omega]
      exact this.setL rfl
    · rw [show data + bs + n * bs = data + (n + 1) * bs by omega]
      exact hout
    · have := hT (i + 1) (by omega)
      rw [Nat.add_mul, Nat.one_mul] at this
      omega

/-- Blocks of the size of a pointer, aligned at it: the last one of a new segment is just after it. -/
theorem run_alloc_out (ext : Ext) {base : Nat} {content : Nat → Nat} {rest : List (Nat × (Nat → Nat))} (h : Sim T m t w)
    (h0 : t.freeBlock = 0) (hbs : t.blockSize = ptrSize) (hal : t.alignSize = ptrSize) (hf : Fresh w.live base 4032)
    (hlt : base + 4032 + ptrSize < 2 ^ sizeBit) (hc : ∀ x, content x < 256) (hb : base % ptrSize = 0) (hout : ¬ InReg w (base + 4032) ptrSize) :
    run ext "tommy_allocator_alloc" [pAl T] ⟨w, (base, content) :: rest, log⟩ = none := by
  have hp := ptr_pos
  have hsm : 3 * ptrSize ≤ 4032 := by archd
  have hd := h.str.reg.fresh hf
  have h1 := h.mal hc hf
  have hr1 : InReg (malW w base content 4032) base 4032 := ⟨base, 4032, upd_same _ _ _, Nat.le_refl _, Nat.le_refl _⟩
  have h2 := h1.write (q := base) (v := t.usedSegment) (by omega)
  have h3 := h2.set1 (v := base) (by omega)
  have hadd : addT base ptrSize = base + ptrSize := Nat.mod_eq_of_lt (by omega)
  have hmod : (base + ptrSize) % ptrSize = 0 := by rw [Nat.add_mod_right]; exact hb
  obtain ⟨n, hn⟩ : ∃ n, 4032 = (n + 1) * ptrSize := by cases ‹Arch› <;> [exact ⟨1007, rfl⟩; exact ⟨503, rfl⟩]
  have hn' : (n + 1) * ptrSize = n * ptrSize + ptrSize := by rw [Nat.add_mul, Nat.one_mul]
  have hpush := push_none (ms := rest) (log := log ++ [.got base 4032]) ext (seg := base) (mis := 0) (off := base + ptrSize) (bs := ptrSize) n
    (base + ptrSize) 4032 _ _ _ h3 hbs (by omega) (by omega) (by omega) (fun i hi => by
      have := AllocSpec.mul_le_mul_lt (bs := ptrSize) hi
      exact (hr1.setL rfl).sub (by omega) (by omega)) (by
      rw [show base + ptrSize + n * ptrSize = base + 4032 by omega]
      intro e
      obtain ⟨b, k, g1, g2, g3⟩ := AllocSpec.acc_iff.1 e
      change upd w.live base (some 4032) b = some k at g1
      by_cases eb : b = base
      · rw [eb, upd_same] at g1
        cases g1
        omega
      · rw [upd_ne eb] at g1
        exact hout ⟨b, k, g1, g2, g3⟩) (fun i hi => by
      have := AllocSpec.mul_le_mul_lt (bs := ptrSize) hi
      omega)
  have hseg : exec structs ext (run ext) segBlock (allocEnv T) ⟨w, (base, content) :: rest, log⟩ = none := by
    unfold segBlock allocEnv
    obtain ⟨W, hWe⟩ : ∃ W, W = pushDo := ⟨_, rfl⟩
    rw [← hWe] at hpush ⊢
    clear hWe
    simp only [Stmt.list]
    csimp [size_alU8, elem_u8, size4032, conv_addT]
    have e1 : Tommy.sizeT (Tommy.sizeT (ptrSize + ptrSize) + ptrSize) = 3 * ptrSize := by archd
    rw [get_step h.r3 h.str.al, get_step h.r2 h.str.bs, hal, hbs, e1, if_neg (by omega)]
    rw [malloc_step]
    dsimp only
    rw [get_step h1.r1 h1.str.seg, set_step (hr1.sub (by omega) (by omega)), set_step h2.r1, get_step (v := ptrSize) h3.r3 (h3.str.al.trans hal)]
    rw [hadd, mod_usizes _ _ (by omega) (by omega)]
    simp only [lift_some, pure_bind, conv_same, hmod, if_true]
    exact bind_none hpush
  rw [run_fun rfl (show funs _ = some f_tommy_allocator_alloc from rfl)]
  unfold f_tommy_allocator_alloc pAl
  unfold segBlock pushDo allocEnv at hseg
  generalize Stmt.block _ = W at hseg ⊢
  simp only [Stmt.list]
  csimp
  rw [get_step h.r0 h.str.fb, if_pos h0]
  exact bind_none hseg

theorem alloc_out {s : AMem} {a : Ab} {t base : Nat} {c : Nat → Nat} (h : Inv s a) (ht : a.pool t = some ⟨ptrSize, ptrSize, [], [], []⟩)
    (hf : Fresh s.live base 4032) (hlt : base + 4032 + ptrSize < 2 ^ sizeBit) (hc : ∀ x, c x < 256) (hb : base % ptrSize = 0)
    (hout : ¬ InReg s (base + 4032) ptrSize) : step (.alloc t base c) s = none := by
  obtain ⟨al, F, hs, hp⟩ := (h.rep t _ ht).pool
  have hF : F = [] := by
    cases F with
    | nil => rfl
    | cons p F =>
      obtain ⟨_, b, hb, _⟩ := hp.blk p (by simp)
      simp at hb
  subst hF
  have e := run_alloc_out (rest := []) (log := []) ext (hs.sim h.ok) hp.free hp.bs hp.al hf hlt hc hb hout
  show call _ _ _ _ = _
  unfold call
  rw [e]; rfl

end Tommy.CAl
