import Verif.Proof.CAllocOut
/-!
  Property C80: the text of the allocator in C.
-/
set_option autoImplicit false
set_option linter.unusedSectionVars false
namespace Tommy

open AllocSpec (Pool)
open CArraySpec (InReg)

section
variable [Arch]

/-- **C80** The text of `tommyalloc.c`, with the meaning that the C language gives to it, executed by a program with any number of allocators in a
    memory of bytes: all the calls are without undefined behaviour and terminate; the blocks are aligned, in the memory given by malloc(), and
    do not overlap; the memory is requested only when all the blocks ever allocated are in use, and is all given back; the memory used is the right
    one; and nothing else changes in the memory. -/
theorem C80_source : CAllocSpec.sys.Correct := CAl.sys_correct

/-- C80, said on a sequence of calls. -/
theorem C80_history (s : AMem) (a : CAllocSpec.Ab) (h : CAllocSpec.sys.init s a) (ops : List CAllocSpec.Op) : CAllocSpec.sys.Runs s a ops :=
  C80_source.runs ops s a (.init h)

variable {s : AMem} {a : CAllocSpec.Ab}

theorem C80_inv (h : CAllocSpec.sys.Reach s a) : CAl.Inv s a := Sys.reach_inv (Inv := CAl.Inv) (fun _ _ h => CAl.inv_init h) CAl.inv_step s a h

/-- The bytes that the library uses for an allocator are in the memory of the program, and are not used for another one. -/
theorem C80_apart (h : CAllocSpec.sys.Reach s a) {t t' : Nat} {P P' : Pool} (ht : a.pool t = some P) (ht' : a.pool t' = some P') (hne : t ≠ t') {x : Nat}
    (hx : CAllocSpec.internal t P x) : InReg s x 1 ∧ ¬ CAllocSpec.internal t' P' x :=
  ⟨((C80_inv h).rep t P ht).inReg hx, (C80_inv h).int t P t' P' ht ht' hne x hx⟩

/-- The blocks in use are aligned, in the memory of the program, and apart from all the other ones in use, also of the other allocators. -/
theorem C80_blocks (h : CAllocSpec.sys.Reach s a) {t p : Nat} {P : Pool} (ht : a.pool t = some P) (hp : p ∈ P.used) :
    p ≠ 0 ∧ p % P.al = 0 ∧ InReg s p P.bs ∧
    ∀ t' P' q, a.pool t' = some P' → q ∈ P'.used → (t, p) ≠ (t', q) → p + P.bs ≤ q ∨ q + P'.bs ≤ p := by
  have i := C80_inv h
  obtain ⟨al, F, hs, hP⟩ := (i.rep t P ht).pool
  obtain ⟨h1, b, hb, h2, h3⟩ := hP.blk p (by simp [hp])
  have hl := hP.live b hb
  have hp8 := CAl.ptr_pos
  have hge := AllocSpec.segSize_ge P.bs P.al
  refine ⟨by omega, h1, ⟨b, _, hl.1, by omega, by omega⟩, fun t' P' q ht' hq hne => ?_⟩
  obtain ⟨al', F', hs', hP'⟩ := (i.rep t' P' ht').pool
  by_cases e : t = t'
  · subst e
    rw [ht] at ht'
    cases ht'
    have hpq : p ≠ q := fun e => hne (by rw [e])
    have := CAl.off_of (List.pairwise_append.1 hP.apart).1 hp hq hpq
    unfold AllocSpec.Off at this
    omega
  · obtain ⟨h4, c, hc, h5, h6⟩ := hP'.blk q (by simp [hq])
    have hl' := hP'.live c hc
    have hge' := AllocSpec.segSize_ge P'.bs P'.al
    have hbc : b ≠ c := by
      rintro rfl
      exact i.int t P t' P' ht ht' e b (CAl.internal_header hP i.ok hb (Nat.le_refl _) (by omega)) (CAl.internal_header hP' i.ok hc (Nat.le_refl _) (by omega))
    have := i.ok.reg b _ c _ hl.1 hl'.1 hbc
    omega

/-- What happens when the blocks do not fit in the segment, the defect of C28 in the text: with blocks of the size of a pointer, aligned at it, and
    malloc() returning memory aligned at it, the first alloc() writes just after the 4032 bytes requested. If there is no other memory of the program
    there, it is undefined behaviour. -/
theorem C80_out (h : CAllocSpec.sys.Reach s a) {t base : Nat} {c : Nat → Nat} (ht : a.pool t = some ⟨ptrSize, ptrSize, [], [], []⟩)
    (hf : CArraySpec.Fresh s.live base 4032) (hlt : base + 4032 + ptrSize < 2 ^ sizeBit) (hc : ∀ x, c x < 256) (hb : base % ptrSize = 0)
    (hout : ¬ InReg s (base + 4032) ptrSize) : CAllocSpec.step (.alloc t base c) s = none :=
  CAl.alloc_out (C80_inv h) ht hf hlt hc hb hout

end

/-! ### Example: an allocator in a block of another allocator, in a 64 bit build -/

namespace CAllocEx
open CAllocSpec
attribute [local instance] Arch.w64

/-- 4096 bytes at 2^20. -/
def s0 : AMem := ⟨fun _ => 3, fun p => if p = 2 ^ 20 then some 4096 else none⟩

def a0 : CAllocSpec.Ab := ⟨s0, fun _ => none⟩

theorem live0 {p n : Nat} : s0.live p = some n ↔ p = 2 ^ 20 ∧ n = 4096 := by
  show (if _ then _ else _) = _ ↔ _
  split
  · simp only [Option.some.injEq]; constructor <;> omega
  · simp only [reduceCtorEq, false_iff]; omega

theorem init0 : CAllocSpec.sys.init s0 a0 := by
  refine ⟨rfl, ⟨fun _ => by show 3 < 256; decide, ?_, ?_⟩, fun _ => rfl⟩
  · intro b n h
    rw [live0] at h
    rw [show sizeBit = 64 from rfl]
    omega
  · intro b n b' n' h h' hne
    rw [live0] at h h'
    omega

/-- An allocator of blocks of 40 bytes at 2^20, the size of the struct of an allocator. -/
def op1 : CAllocSpec.Op := .init (2 ^ 20) 40 8
def op2 : CAllocSpec.Op := .alloc (2 ^ 20) (2 ^ 30) fun _ => 7
/-- In its block, an allocator of blocks of 24 bytes aligned to 16. -/
def op3 (p : Nat) : CAllocSpec.Op := .init p 24 16
def op4 (p : Nat) : CAllocSpec.Op := .alloc p (2 ^ 31) fun _ => 9

theorem legal1 : CAllocSpec.sys.legal a0 op1 := by
  refine ⟨⟨2 ^ 20, 4096, live0.2 ⟨rfl, rfl⟩, Nat.le_refl _, by decide⟩, fun _ _ _ t v h => (nomatch h), by decide, by rw [show sizeBit = 64 from rfl]; decide,
    by rw [show sizeBit = 64 from rfl]; decide, by rw [show sizeBit = 64 from rfl]; decide⟩

/-- An allocation from an allocator without segments. -/
theorem first {s : AMem} {a : Ab} {t base bs al : Nat} {c : Nat → Nat} (r : sys.Reach s a) (ht : a.pool t = some ⟨bs, al, [], [], []⟩)
    (hl : sys.legal a (.alloc t base c)) : ∃ p s' a', sys.Reach s' a' ∧ a'.mem = s' ∧ a'.pool = upd a.pool t (some ⟨bs, al, [p], [p], [base]⟩) ∧
      s'.live = upd a.mem.live base (some (AllocSpec.segSize bs al)) ∧ p % al = 0 ∧ base ≤ p ∧ p + bs ≤ base + AllocSpec.segSize bs al := by
  obtain ⟨o, s', e, h1, h2, h3⟩ := C80_source s a r _ hl
  have r' := Sys.Reach.step r hl e
  have hm := (C80_inv r').mem
  change o.mem = s' at hm
  have hp : (next a (.alloc t base c) o).pool = upd a.pool t (some ⟨bs, al, [o.res], [o.res], if o.log.isEmpty then [] else [base]⟩) := by
    simp only [next, ht, Option.map_some]
  obtain ⟨h4, h5, ⟨b, hb, h6, h7⟩, _⟩ := h1 _ _ ht (by rw [hp, upd_same])
  rcases h2 _ ht with h2 | ⟨h2, _⟩
  · rw [h2] at hb
    simp at hb
  · rw [h2] at hb
    simp only [List.isEmpty_cons, Bool.false_eq_true, if_false, List.mem_singleton] at hb
    subst hb
    refine ⟨o.res, s', _, r', hm, ?_, ?_, h5, h6, h7⟩
    · rw [h2] at hp; exact hp
    · rw [← hm, (h3 (fun h => h)).1, h2]; rfl

/-- After the calls there are the two allocators, each one with a block in use; the second is in the block of the first. -/
theorem reach4 : ∃ s a p q, sys.Reach s a ∧ (∀ t, a.pool t = if t = p then some ⟨32, 16, [q], [q], [2 ^ 31]⟩ else
      if t = 2 ^ 20 then some ⟨40, 8, [p], [p], [2 ^ 30]⟩ else none) ∧
    p % 8 = 0 ∧ 2 ^ 30 ≤ p ∧ p + 40 ≤ 2 ^ 30 + 4032 ∧ q % 16 = 0 ∧ 2 ^ 31 ≤ q ∧ q + 32 ≤ 2 ^ 31 + 4032 := by
  obtain ⟨o1, s1, e1, _, g1, al1⟩ := C80_source s0 a0 (.init init0) op1 legal1
  have r1 := Sys.Reach.step (.init init0) legal1 e1
  have m1 : o1.mem.live = s0.live := by rw [(al1 (fun h => h)).1, show o1.log = [] from g1]; rfl
  have t1 : (sys.next a0 op1 o1).pool = upd a0.pool (2 ^ 20) (some ⟨40, 8, [], [], []⟩) := rfl
  have h2 : sys.legal (sys.next a0 op1 o1) op2 := by
    refine ⟨⟨40, 8, [], [], []⟩, by rw [t1, upd_same], ⟨by decide, by rw [show sizeBit = 64 from rfl]; decide, ?_, ?_⟩, fun _ => by show 7 < 256; decide,
      by unfold AllocSpec.Room; decide⟩
    · show o1.mem.live _ = none
      rw [m1]; decide
    · intro b n hb
      change o1.mem.live b = _ at hb
      rw [m1, live0] at hb
      show 2 ^ 30 + 4032 ≤ b ∨ b + n ≤ 2 ^ 30
      omega
  obtain ⟨p, s2, a2, r2, m2, t2, l2, hp1, hp2, hp3⟩ := first r1 (by rw [t1, upd_same]) h2
  have hp3 : p + 40 ≤ 2 ^ 30 + 4032 := hp3
  have l2 : s2.live = upd s0.live (2 ^ 30) (some 4032) := by rw [l2, ← m1]; rfl
  rw [t1] at t2
  have h3 : sys.legal a2 (op3 p) := by
    refine ⟨⟨2 ^ 30, 4032, by rw [m2, l2]; rfl, hp2, hp3⟩, ?_, by decide, by rw [show sizeBit = 64 from rfl]; decide,
      by rw [show sizeBit = 64 from rfl]; decide, by rw [show sizeBit = 64 from rfl]; decide⟩
    intro x hx hx' t P hP
    have hx' : x < p + 40 := hx'
    rw [t2] at hP
    by_cases e : t = 2 ^ 20
    · subst e
      rw [upd_same] at hP
      cases hP
      rintro (⟨_, g⟩ | ⟨_, g⟩)
      · have g : x < 2 ^ 20 + 40 := g
        omega
      · have := g p (by simp)
        dsimp only at this
        omega
    · rw [upd_ne e, upd_ne e] at hP
      cases hP
  obtain ⟨o3, s3, e3, _, g3, al3⟩ := C80_source s2 a2 r2 (op3 p) h3
  have r3 := Sys.Reach.step r2 h3 e3
  have m3 : o3.mem.live = s2.live := by rw [← m2, (al3 (fun h => h)).1, show o3.log = [] from g3]; rfl
  have t3 : (sys.next a2 (op3 p) o3).pool = upd a2.pool p (some ⟨32, 16, [], [], []⟩) := rfl
  have h4 : sys.legal (sys.next a2 (op3 p) o3) (op4 p) := by
    refine ⟨⟨32, 16, [], [], []⟩, by rw [t3, upd_same], ⟨by decide, by rw [show sizeBit = 64 from rfl]; decide, ?_, ?_⟩, fun _ => by show 9 < 256; decide,
      by unfold AllocSpec.Room; decide⟩
    · show o3.mem.live _ = none
      rw [m3, l2]; decide
    · intro b n hb
      change o3.mem.live b = _ at hb
      show 2 ^ 31 + 4032 ≤ b ∨ b + n ≤ 2 ^ 31
      rw [m3, l2] at hb
      by_cases e : b = 2 ^ 30
      · subst e
        rw [upd_same] at hb
        cases hb
        omega
      · rw [upd_ne e, live0] at hb
        omega
  obtain ⟨q, s4, a4, r4, m4, t4, l4, hq1, hq2, hq3⟩ := first r3 (by rw [t3, upd_same]) h4
  refine ⟨s4, a4, p, q, r4, fun t => ?_, hp1, hp2, hp3, hq1, hq2, hq3⟩
  rw [t4, t3]
  by_cases e : t = p
  · rw [if_pos e, e, upd_same]
  · rw [if_neg e, upd_ne e, upd_ne e, t2]
    by_cases e' : t = 2 ^ 20
    · rw [if_pos e', e', upd_same]
    · rw [if_neg e', upd_ne e', upd_ne e']; rfl

/-- Then: the memory used, the blocks apart, and what the program can do: the second allocator can be destroyed; the first cannot, and the block with
    the second cannot be deallocated, as long as the second is in use. -/
example : ∃ s a p q, sys.Reach s a ∧ (∃ P, a.pool p = some P ∧ P.used = [q]) ∧
    (∃ r, step (.usage (2 ^ 20)) s = some (r, s) ∧ r.res = 40) ∧ (∃ r, step (.usage p) s = some (r, s) ∧ r.res = 32) ∧
    (p + 40 ≤ q ∨ q + 32 ≤ p) ∧
    sys.legal a (.done p) ∧ sys.legal a (.free p q) ∧ ¬ sys.legal a (.done (2 ^ 20)) ∧ ¬ sys.legal a (.free (2 ^ 20) p) := by
  obtain ⟨s, a, p, q, r, ht, hp1, hp2, hp3, hq1, hq2, hq3⟩ := reach4
  have i := C80_inv r
  have hA : a.pool (2 ^ 20) = some ⟨40, 8, [p], [p], [2 ^ 30]⟩ := by rw [ht, if_neg (by omega), if_pos rfl]
  have hB : a.pool p = some ⟨32, 16, [q], [q], [2 ^ 31]⟩ := by rw [ht, if_pos rfl]
  have hu : ∀ t P, a.pool t = some P → ∃ r, step (.usage t) s = some (r, s) ∧ r.res = P.used.length * P.bs % 2 ^ sizeBit := by
    intro t P hP
    obtain ⟨al, F, hs, hi⟩ := (i.rep t P hP).pool
    have e := CAl.call_eq (CAl.run_usage (ms := []) (log := []) ext (hs.sim i.ok))
    obtain ⟨o, s', e', h1, _⟩ := C80_source s a r (.usage t) ⟨P, hP⟩
    change call _ _ _ _ = _ at e'
    have := e.symm.trans e'
    simp only [Option.some.injEq, Prod.mk.injEq] at this
    obtain ⟨g1, g2⟩ := this
    subst g2
    exact ⟨o, e', h1 P hP⟩
  refine ⟨s, a, p, q, r, ⟨_, hB, rfl⟩, ?_, ?_, ?_, ⟨_, hB, ?_⟩, ⟨_, hB, by simp, ?_⟩, ?_, ?_⟩
  · obtain ⟨o, e, h⟩ := hu _ _ hA
    exact ⟨o, e, h.trans (by rw [show sizeBit = 64 from rfl]; rfl)⟩
  · obtain ⟨o, e, h⟩ := hu _ _ hB
    exact ⟨o, e, h.trans (by rw [show sizeBit = 64 from rfl]; rfl)⟩
  · exact (C80_blocks r hA (p := p) (by simp)).2.2.2 p _ q hB (by simp) (by simp; omega)
  · intro t' P' ht' hne b hb
    rw [ht, if_neg hne] at ht'
    split at ht'
    · rename_i e
      simp only [List.mem_singleton] at hb
      subst hb e
      show 2 ^ 20 + 40 ≤ 2 ^ 31 ∨ _
      omega
    · cases ht'
  · intro x h1 h2 t P hP
    dsimp only at h2
    rw [ht] at hP
    split at hP
    · cases hP
      rename_i e
      subst e
      rintro (⟨_, g⟩ | ⟨_, g⟩)
      · have g : x < t + 40 := g
        omega
      · have := g q (by simp)
        dsimp only at this
        omega
    · split at hP
      · cases hP
        rename_i e
        subst e
        rintro (⟨_, g⟩ | ⟨⟨b, hb, g1, g2⟩, g⟩)
        · have g : x < 2 ^ 20 + 40 := g
          omega
        · simp only [List.mem_singleton] at hb
          subst hb
          have g2 : x < 2 ^ 30 + 4032 := g2
          omega
      · cases hP
  · rintro ⟨P, hP, h⟩
    rw [hA] at hP
    cases hP
    have := h p _ hB (by omega) (2 ^ 30) (by simp)
    have : p + 40 ≤ 2 ^ 30 ∨ 2 ^ 30 + 4032 ≤ p := this
    omega
  · rintro ⟨P, hP, _, h⟩
    rw [hA] at hP
    cases hP
    exact h p (Nat.le_refl _) (by dsimp only; omega) p _ hB (.inl ⟨Nat.le_refl _, by show p < p + 40; omega⟩)

/-- An allocator of pointers: the first alloc() writes out of the segment. -/
example : ∃ s a, sys.Reach s a ∧ a.pool (2 ^ 20) = some ⟨8, 8, [], [], []⟩ ∧ step (.alloc (2 ^ 20) (2 ^ 30) fun _ => 7) s = none := by
  have hl : CAllocSpec.sys.legal a0 (.init (2 ^ 20) 8 8) :=
    ⟨⟨2 ^ 20, 4096, live0.2 ⟨rfl, rfl⟩, Nat.le_refl _, by decide⟩, fun _ _ _ t v h => (nomatch h), by decide, by rw [show sizeBit = 64 from rfl]; decide,
      by rw [show sizeBit = 64 from rfl]; decide, by rw [show sizeBit = 64 from rfl]; decide⟩
  obtain ⟨o, s, e, _, g, al⟩ := C80_source s0 a0 (.init init0) _ hl
  have r := Sys.Reach.step (.init init0) hl e
  have hm : s.live = s0.live := by
    rw [← (C80_inv r).mem]
    show o.mem.live = _
    rw [(al (fun h => h)).1, show o.log = [] from g]; rfl
  have ht : (sys.next a0 (.init (2 ^ 20) 8 8) o).pool (2 ^ 20) = some ⟨8, 8, [], [], []⟩ := by
    show upd a0.pool (2 ^ 20) (some _) (2 ^ 20) = _
    rw [upd_same]; rfl
  refine ⟨s, _, r, ht, C80_out r ht ⟨by decide, by rw [show sizeBit = 64 from rfl]; decide, by rw [hm]; decide, ?_⟩ (by rw [show sizeBit = 64 from rfl]; decide)
    (fun _ => by show 7 < 256; decide) (by decide) ?_⟩
  · intro b n hb
    rw [hm, live0] at hb
    omega
  · rintro ⟨b, n, h1, h2, h3⟩
    rw [hm, live0] at h1
    omega

end CAllocEx
end Tommy
