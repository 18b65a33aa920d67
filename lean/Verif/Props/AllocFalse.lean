import Verif.Props.Alloc
import Verif.Proof.SortErase
/-!
  C29, C30 (tommyalloc) for every heap: the memory usage is always right, while the reuse and the release of the segments
  fail on a heap where only the requested bytes are usable and two regions may be adjacent.
-/
set_option autoImplicit false
namespace Tommy
open AllocSpec Lean.Order

section
variable [Arch]

/-! ### The memory usage, with no hypothesis on the heap -/

omit [Arch] in
theorem AM.adm {α : Type} (P : AMem → α → AMem → Prop) :
    admissible (fun m : AM α => ∀ h a h', m h = some (a, h') → P h a h') := by
  refine admissible_pi_apply (β := fun _ : AMem => Option (α × AMem))
    (fun h (x : Option (α × AMem)) => ∀ a h', x = some (a, h') → P h a h') fun h => ?_
  exact admissible_pi _ fun a => admissible_pi _ fun h' => Option.admissible_eq_some _ _

theorem pushLoop_same : ∀ (t : Alloc) (data size : Nat) (m : AMem) (r : Alloc) (m' : AMem),
    allocatorPushLoop t data size m = some (r, m') → r.count = t.count ∧ r.blockSize = t.blockSize := by
  refine allocatorPushLoop.fixpoint_induct (fun g => ∀ t data size m r m', g t data size m = some (r, m') →
    r.count = t.count ∧ r.blockSize = t.blockSize) ?_ ?_
  · exact adm_fun fun (t : Alloc) => adm_fun fun data => adm_fun fun size => AM.adm fun _ (r : Alloc) _ => r.count = t.count ∧ r.blockSize = t.blockSize
  · intro g ih t data size m r m' e
    simp only [bind, StateT.bind] at e
    obtain ⟨w, _, e⟩ := Option.bind_eq_some_iff.1 e
    split at e
    · have := ih _ _ _ _ _ _ e; exact this
    · cases e; exact ⟨rfl, rfl⟩

theorem segment_same {slack base : Nat} {content : Nat → Nat} {t : Alloc} {m : AMem} {r : Alloc × AMem}
    (h : allocatorSegment slack base content t m = some r) : r.1.count = t.count ∧ r.1.blockSize = t.blockSize := by
  unfold allocatorSegment at h
  simp only [bind, StateT.bind, amalloc, Option.bind_some] at h
  obtain ⟨w, _, e⟩ := Option.bind_eq_some_iff.1 h
  split at e
  · have := pushLoop_same _ _ _ _ r.1 r.2 e; exact this
  · have := pushLoop_same _ _ _ _ r.1 r.2 e; exact this

theorem alloc_same {slack base : Nat} {content : Nat → Nat} {t : Alloc} {m : AMem} {r : (Alloc × Nat) × AMem}
    (h : allocatorAlloc slack base content t m = some r) : r.1.1.count = addT t.count 1 ∧ r.1.1.blockSize = t.blockSize := by
  unfold allocatorAlloc at h
  by_cases h0 : t.freeBlock = 0
  · simp only [h0, if_true] at h
    simp only [bind, StateT.bind] at h
    obtain ⟨w, hw, e⟩ := Option.bind_eq_some_iff.1 h
    obtain ⟨v, _, e⟩ := Option.bind_eq_some_iff.1 e
    cases e
    have := segment_same hw
    exact ⟨by simp only; rw [this.1], this.2⟩
  · simp only [h0, if_false] at h
    simp only [bind, StateT.bind, pure, StateT.pure, Option.bind_some] at h
    obtain ⟨v, _, e⟩ := Option.bind_eq_some_iff.1 h
    cases e
    exact ⟨rfl, rfl⟩

theorem usage_inv (slack : Nat) (u : Use) (s : St) (a : Ab) (hr : (sys slack u).Reach s a) :
    ∀ id P, a.pool id = some P → ∃ t, s.al id = some t ∧ t.count = P.used.length % 2 ^ sizeBit ∧ t.blockSize = P.bs := by
  induction hr with
  | init h =>
    intro id P hP
    rw [h.2.2.1 id] at hP; cases hP
  | @step s a op out s' hr hl e ih =>
    intro id P hP
    cases op with
    | init id' bs al =>
      cases e
      simp only [sys, next, upd] at hP ⊢
      split at hP <;> rename_i hid
      · cases hP
        obtain ⟨e, _⟩ := init_real hl.2.1 hl.2.2.1
        simp only [hid, if_true]
        exact ⟨_, rfl, by rw [e]; rfl, by rw [e]⟩
      · simp only [hid, if_false]; exact ih _ _ hP
    | alloc id' base content =>
      simp only [sys, step, bind] at e
      obtain ⟨t, ht, e⟩ := Option.bind_eq_some_iff.1 e
      obtain ⟨r, hr', e⟩ := Option.bind_eq_some_iff.1 e
      cases e
      obtain ⟨_, Q, hQ, _⟩ := hl
      simp only [sys, next, hQ, upd] at hP ⊢
      split at hP <;> rename_i hid
      · cases hP
        obtain ⟨t', ht', h1, h2⟩ := ih _ _ hQ
        rw [ht] at ht'; cases ht'
        obtain ⟨g1, g2⟩ := alloc_same hr'
        simp only [hid, if_true]
        refine ⟨_, rfl, ?_, by rw [g2, h2]⟩
        rw [g1, h1, List.length_cons]; unfold addT; arch
      · simp only [hid, if_false]; exact ih _ _ hP
    | free id' p =>
      simp only [sys, step, bind] at e
      obtain ⟨t, ht, e⟩ := Option.bind_eq_some_iff.1 e
      obtain ⟨r, hr', e⟩ := Option.bind_eq_some_iff.1 e
      cases e
      obtain ⟨Q, hQ, hp⟩ := hl
      simp only [sys, next, hQ, upd] at hP ⊢
      split at hP <;> rename_i hid
      · cases hP
        obtain ⟨t', ht', h1, h2⟩ := ih _ _ hQ
        rw [ht] at ht'; cases ht'
        unfold allocatorFree at hr'
        simp only [bind, StateT.bind] at hr'
        obtain ⟨w, _, hr'⟩ := Option.bind_eq_some_iff.1 hr'
        cases hr'
        simp only [hid, if_true]
        refine ⟨_, rfl, ?_, h2⟩
        have := List.length_pos_of_mem hp
        simp only
        rw [h1, List.length_erase_of_mem hp]; unfold subT; arch
      · simp only [hid, if_false]; exact ih _ _ hP
    | usage id' =>
      simp only [sys, step, bind] at e
      obtain ⟨t, ht, e⟩ := Option.bind_eq_some_iff.1 e
      cases e
      exact ih _ _ hP
    | done id' =>
      simp only [sys, step, bind] at e
      obtain ⟨t, ht, e⟩ := Option.bind_eq_some_iff.1 e
      obtain ⟨r, hr', e⟩ := Option.bind_eq_some_iff.1 e
      cases e
      obtain ⟨Q, hQ⟩ := hl
      simp only [sys, next, hQ, upd] at hP ⊢
      split at hP <;> rename_i hid
      · cases hP
        obtain ⟨t', ht', h1, h2⟩ := ih _ _ hQ
        rw [ht] at ht'; cases ht'
        unfold allocatorDone allocatorReset at hr'
        simp only [bind, StateT.bind] at hr'
        obtain ⟨w, _, hr'⟩ := Option.bind_eq_some_iff.1 hr'
        cases hr'
        simp only [hid, if_true]
        exact ⟨_, rfl, rfl, h2⟩
      · simp only [hid, if_false]; exact ih _ _ hP
    | emalloc base size content => cases e; exact ih _ _ hP
    | efree base =>
      simp only [sys, step, Option.map_eq_some_iff] at e
      obtain ⟨w, _, e⟩ := e
      cases e; exact ih _ _ hP
    | ewrite x v => cases e; exact ih _ _ hP

/-- C29: memory_usage() is the size of the blocks in use (as a `tommy_size_t`), for every heap, even one where C27 fails. -/
theorem C29_usage (slack : Nat) (u : Use) (s a) (hr : (sys slack u).Reach s a) (id P) (hP : a.pool id = some P) :
    ∃ t, s.al id = some t ∧ allocatorMemoryUsage t = P.used.length * P.bs % 2 ^ sizeBit := by
  obtain ⟨t, ht, h1, h2⟩ := usage_inv slack u s a hr id P hP
  exact ⟨t, ht, by unfold allocatorMemoryUsage; rw [h1, h2, Nat.mod_mul_mod]⟩

/-- In the state of `allocEx` a block of 24 bytes is in use, and one was freed. -/
example : ∃ s a t, (sys 8 anyUse).Reach s a ∧ s.al 0 = some t ∧ allocatorMemoryUsage t = 24 := by
  obtain ⟨s, a, hr, P, p, q, hP, h1, _, h2, _⟩ := allocEx
  obtain ⟨t, ht, hu⟩ := C29_usage 8 anyUse s a hr 0 P hP
  exact ⟨s, a, t, hr, ht, by rw [hu, h1, h2, Nat.mod_eq_of_lt (by simp only [List.length_cons, List.length_nil]; arch)]; rfl⟩

/-! ### Runs of concrete calls -/

end

/-! The counterexamples are for the 64 bit build. -/
attribute [local instance] Arch.w64

theorem size64 : sizeBit = 64 ∧ ptrSize = 8 := ⟨rfl, rfl⟩

theorem rdP_eight (f : Nat → Nat) (p : Nat) : rdP f p = f p + 256 * (f (p + 1) + 256 * (f (p + 2) + 256 * (f (p + 3) + 256 * (f (p + 4) +
    256 * (f (p + 5) + 256 * (f (p + 6) + 256 * f (p + 7))))))) := rfl

/-- A new segment with the alignment of 8, when the first 8 bytes of each block are usable. -/
theorem segment_run8 {base bs n : Nat} {content : Nat → Nat} {t : Alloc} {m : AMem} (hb : 0 < base) (hb8 : base % 8 = 0)
    (hlt : base + 8192 < 2 ^ 64) (ht : t.freeBlock = 0) (hbs : t.blockSize = bs) (hal : t.alignSize = 8)
    (h8 : 8 ≤ bs) (hle : 16 + bs ≤ 4032) (h1 : (n + 1) * bs ≤ 4032) (h2 : 4032 < (n + 1) * bs + bs)
    (hacc : ∀ i, i ≤ n → ∃ b k, upd m.live base (some 4032) b = some k ∧ b ≤ base + 8 + i * bs ∧ base + 8 + i * bs + 8 ≤ b + k) :
    ∃ m', allocatorSegment 0 base content t m = some ({ t with freeBlock := base + 8 + n * bs, usedSegment := base }, m') ∧
      m'.live = upd m.live base (some 4032) ∧
      (∀ x, x < base ∨ base + 4040 ≤ x → m'.byte x = m.byte x) ∧
      (t.usedSegment = 0 → ∀ x, base ≤ x → x < base + 8 → m'.byte x = 0) ∧
      AllocSpec.Chain m'.byte (base + 8 + n * bs) (blocks (base + 8) bs (n + 1)) := by
  have g1 : addT (addT ptrSize t.alignSize) t.blockSize = 16 + bs := by
    rw [hal, hbs]; unfold addT; (simp only [size64] at *; omega)
  have g2 : (if allocatorBlockSize < 16 + bs then 16 + bs else allocatorBlockSize) = 4032 := by
    unfold allocatorBlockSize; split <;> omega
  have g3 : addT base ptrSize = base + 8 := by unfold addT; (simp only [size64] at *; omega)
  have hw : ∀ m1 : AMem, m1.live base = some 4032 → m1.acc base 8 = true := fun m1 h => acc_of h (Nat.le_refl _) (by omega)
  obtain ⟨m', e, hl, hx, hC⟩ := pushLoop_run h8 n { t with usedSegment := base } (base + 8) 4032
    { live := upd m.live base (some 4032), byte := wrP (fun x => if base ≤ x ∧ x < base + 4032 then content x else m.byte x) base t.usedSegment }
    [] hbs h1 h2 (by decide) (by omega) (by (simp only [size64] at *; omega)) (fun i hi => by obtain ⟨b, k, h3, h4, h5⟩ := hacc i hi; exact acc_of h3 h4 h5) (by simpa [AllocSpec.Chain] using ht) (by simp)
    (by simp only [ht]; decide)
  rw [List.append_nil] at hC
  refine ⟨m', ?_, hl, fun x hx' => ?_, fun hu x h3 h4 => ?_, hC⟩
  · unfold allocatorSegment
    simp only [g1, g2, g3, StateT.bind, bind, amalloc, Option.bind_some, Nat.add_zero]
    rw [writeP_run (hw _ (upd_same ..))]
    have hmis : (base + 8) % t.alignSize = 0 := by rw [hal]; omega
    simp only [Option.bind_some, hmis, ne_eq, not_true_eq_false, if_false]
    exact e
  · rw [hx x (by omega)]
    simp only
    rw [wrP_out (by (simp only [size64] at *; omega)), if_neg (by omega)]
  · rw [hx x (by omega)]
    simp only [wrP, hu]
    rw [if_pos ⟨h3, h4⟩]; simp

theorem alloc_pop {base p : Nat} {content : Nat → Nat} {t : Alloc} {m : AMem} (h : t.freeBlock = p) (h0 : p ≠ 0) (ha : m.acc p 8 = true) :
    allocatorAlloc 0 base content t m = some (({ t with freeBlock := rdP m.byte p, count := addT t.count 1 }, p), m) := by
  unfold allocatorAlloc
  rw [h, if_neg h0]
  simp only [bind, StateT.bind, pure, StateT.pure, Option.bind_some, h, readP_run ha]

theorem alloc_new {base p : Nat} {content : Nat → Nat} {t t' : Alloc} {m m' : AMem} (h : t.freeBlock = 0)
    (e : allocatorSegment 0 base content t m = some (t', m')) (hp : t'.freeBlock = p) (ha : m'.acc p 8 = true) :
    allocatorAlloc 0 base content t m = some (({ t' with freeBlock := rdP m'.byte p, count := addT t'.count 1 }, p), m') := by
  unfold allocatorAlloc
  rw [if_pos h]
  simp only [bind, StateT.bind, e, Option.bind_some, hp, readP_run ha]
  rfl

theorem upd_twice {α : Type} (f : Nat → α) (p : Nat) (v w : α) : upd (upd f p v) p w = upd f p w := by
  funext x; simp only [upd]; split <;> rfl

/-- The regions are of the allocators when the program has none. -/
theorem region_pool {a : Ab} {b n : Nat} (h : a.Region b n) (he : ∀ x, a.env x = none) :
    ∃ id P, a.pool id = some P ∧ b ∈ P.segs ∧ n = segSize P.bs P.al := by
  rcases h with h | h
  · rw [he] at h; cases h
  · exact h

/-- C30 is false: two allocators of blocks of 24 bytes, and malloc() that returns two adjacent regions of 4032 bytes. The last
    block of the first one ends with the 8 bytes of the header of the second one: the user writes in its block, and
    tommy_allocator_done() of the second allocator follows a pointer that is no longer there. -/
theorem C30_false : ¬ ∀ s a, (sys 0 anyUse).Reach s a → ∀ id P, a.pool id = some P → ∃ s', step 0 (.done id) s = some (.unit, s') := by
  intro hall
  have r0 : (sys 0 anyUse).Reach ⟨⟨fun _ => 0, fun _ => none⟩, fun _ => none⟩ ⟨fun _ => none, fun _ => none⟩ :=
    .init ⟨fun _ => rfl, fun _ => rfl, fun _ => rfl, fun _ => rfl⟩
  have r1 := Sys.Reach.step (sys := sys 0 anyUse) (op := .init 0 24 8) r0 ⟨rfl, by decide, by decide, trivial⟩ rfl
  have r2 := Sys.Reach.step (sys := sys 0 anyUse) (op := .init 1 24 8) r1 ⟨rfl, by decide, by decide, trivial⟩ rfl
  obtain ⟨m3, e3, l3, x3, z3, c3⟩ := segment_run8 (base := 16) (bs := 24) (n := 167) (content := fun _ => 0) (t := ⟨0, 0, 24, 8, 0⟩)
    (m := ⟨fun _ => 0, fun _ => none⟩) (by decide) (by decide) (by decide) rfl rfl rfl (by decide) (by decide) (by decide) (by decide)
    (fun i hi => ⟨16, 4032, upd_same .., by omega, by omega⟩)
  have a3 : m3.acc 4032 8 = true := acc_iff.2 ⟨16, 4032, by rw [l3]; exact upd_same .., by decide, by decide⟩
  have f3 := alloc_new (p := 4032) rfl e3 rfl a3
  obtain ⟨al2, hal2⟩ : ∃ al2 : Nat → Option Alloc, al2 = upd (upd (fun _ => none) 0 (some ⟨0, 0, 24, 8, 0⟩)) 1 (some ⟨0, 0, 24, 8, 0⟩) := ⟨_, rfl⟩
  obtain ⟨pl2, hpl2⟩ : ∃ pl2 : Nat → Option Pool, pl2 = upd (upd (fun _ => none) 0 (some ⟨24, 8, [], [], []⟩)) 1 (some ⟨24, 8, [], [], []⟩) := ⟨_, rfl⟩
  have r2 : (sys 0 anyUse).Reach ⟨⟨fun _ => 0, fun _ => none⟩, al2⟩ ⟨pl2, fun _ => none⟩ := by rw [hal2, hpl2]; exact r2
  have q2 : ∀ id P, pl2 id = some P → P.bs = 24 ∧ P.al = 8 ∧ P.segs = [] := by
    intro id P h
    rw [hpl2] at h
    simp only [upd] at h
    split at h
    · cases h; exact ⟨rfl, rfl, rfl⟩
    · split at h <;> cases h; exact ⟨rfl, rfl, rfl⟩
  have n2 : ∀ b n, ¬ Ab.Region ⟨pl2, fun _ => none⟩ b n := fun b n h => by
    obtain ⟨id, P, h1, h2, _⟩ := region_pool h fun _ => rfl
    rw [(q2 id P h1).2.2] at h2
    cases h2
  have r3 : (sys 0 anyUse).Reach ⟨m3, upd al2 0 (some ⟨rdP m3.byte 4032, 16, 24, 8, 1⟩)⟩
      ⟨upd pl2 0 (some ⟨24, 8, [4032], [4032], [16]⟩), fun _ => none⟩ := by
    have h := Sys.Reach.step (sys := sys 0 anyUse) (op := .alloc 0 16 fun _ => 0) (out := .block 4032 true)
      (s' := ⟨m3, upd al2 0 (some ⟨rdP m3.byte 4032, 16, 24, 8, 1⟩)⟩) r2 ⟨trivial, ⟨24, 8, [], [], []⟩, by rw [hpl2]; rfl, by decide, by decide,
        fun n h => absurd h (n2 _ _), fun b n h => absurd h (n2 _ _)⟩ (by
        simp only [sys, step, bind]
        have : al2 0 = some ⟨0, 0, 24, 8, 0⟩ := by rw [hal2]; rfl
        simp only [this, Option.bind_some, f3, l3, upd_same]
        rfl)
    have hn : (sys 0 anyUse).next ⟨pl2, fun _ => none⟩ (.alloc 0 16 fun _ => 0) (.block 4032 true) =
        ⟨upd pl2 0 (some ⟨24, 8, [4032], [4032], [16]⟩), fun _ => none⟩ := by
      have : pl2 0 = some ⟨24, 8, [], [], []⟩ := by rw [hpl2]; rfl
      simp only [sys, next, this]; rfl
    rw [hn] at h; exact h
  obtain ⟨m4, e4, l4, x4, z4, c4⟩ := segment_run8 (base := 4048) (bs := 24) (n := 167) (content := fun _ => 0) (t := ⟨0, 0, 24, 8, 0⟩)
    (m := m3) (by decide) (by decide) (by decide) rfl rfl rfl (by decide) (by decide) (by decide) (by decide)
    (fun i hi => ⟨4048, 4032, upd_same .., by omega, by omega⟩)
  have a4 : m4.acc 8064 8 = true := acc_iff.2 ⟨4048, 4032, by rw [l4]; exact upd_same .., by decide, by decide⟩
  have f4 := alloc_new (p := 8064) rfl e4 rfl a4
  have r4 : (sys 0 anyUse).Reach ⟨m4, upd (upd al2 0 (some ⟨rdP m3.byte 4032, 16, 24, 8, 1⟩)) 1 (some ⟨rdP m4.byte 8064, 4048, 24, 8, 1⟩)⟩
      ⟨upd (upd pl2 0 (some ⟨24, 8, [4032], [4032], [16]⟩)) 1 (some ⟨24, 8, [8064], [8064], [4048]⟩), fun _ => none⟩ := by
    have hp : upd pl2 0 (some ⟨24, 8, [4032], [4032], [16]⟩) 1 = some ⟨24, 8, [], [], []⟩ := by rw [hpl2]; rfl
    have hreg : ∀ b n, Ab.Region ⟨upd pl2 0 (some ⟨24, 8, [4032], [4032], [16]⟩), fun _ => none⟩ b n → b = 16 ∧ n = 4032 := by
      intro b n h
      obtain ⟨id, P, h1, h2, h3⟩ := region_pool h fun _ => rfl
      simp only [upd] at h1
      split at h1
      · cases h1; exact ⟨by simpa using h2, h3⟩
      · rw [(q2 id P h1).2.2] at h2; cases h2
    have h := Sys.Reach.step (sys := sys 0 anyUse) (op := .alloc 1 4048 fun _ => 0) (out := .block 8064 true)
      (s' := ⟨m4, upd (upd al2 0 (some ⟨rdP m3.byte 4032, 16, 24, 8, 1⟩)) 1 (some ⟨rdP m4.byte 8064, 4048, 24, 8, 1⟩)⟩) r3
      ⟨trivial, ⟨24, 8, [], [], []⟩, hp, by decide, by decide,
        fun n h => by have := hreg _ _ h; omega, fun b n h => by obtain ⟨rfl, rfl⟩ := hreg _ _ h; decide⟩ (by
        simp only [sys, step, bind]
        have h1 : upd al2 0 (some ⟨rdP m3.byte 4032, 16, 24, 8, 1⟩) 1 = some ⟨0, 0, 24, 8, 0⟩ := by rw [hal2]; rfl
        have h2 : m3.live 4048 = none := by rw [l3]; rfl
        simp only [h1, Option.bind_some, f4, l4, upd_same, h2]
        rfl)
    have hn : (sys 0 anyUse).next ⟨upd pl2 0 (some ⟨24, 8, [4032], [4032], [16]⟩), fun _ => none⟩ (.alloc 1 4048 fun _ => 0) (.block 8064 true) =
        ⟨upd (upd pl2 0 (some ⟨24, 8, [4032], [4032], [16]⟩)) 1 (some ⟨24, 8, [8064], [8064], [4048]⟩), fun _ => none⟩ := by
      simp only [sys, next, hp]; rfl
    rw [hn] at h; exact h
  have r5 := Sys.Reach.step (sys := sys 0 anyUse) (op := .ewrite 4048 1) r4
    (Or.inr ⟨0, ⟨24, 8, [4032], [4032], [16]⟩, 4032, rfl, by simp, by decide, by decide⟩) rfl
  obtain ⟨s', e⟩ := hall _ _ r5 1 ⟨24, 8, [8064], [8064], [4048]⟩ rfl
  have hrd : rdP (upd m4.byte 4048 1) 4048 = 1 := by
    have hz : ∀ x, 4048 < x → x < 4056 → upd m4.byte 4048 1 x = 0 := fun x h1 h2 => by
      rw [upd_ne (by omega)]; exact z4 rfl x (by omega) h2
    rw [rdP_eight, upd_same, hz (4048 + 1) (by decide) (by decide), hz (4048 + 2) (by decide) (by decide), hz (4048 + 3) (by decide) (by decide),
      hz (4048 + 4) (by decide) (by decide), hz (4048 + 5) (by decide) (by decide), hz (4048 + 6) (by decide) (by decide),
      hz (4048 + 7) (by decide) (by decide)]
  have hbad : allocatorResetLoop 4048 { m4 with byte := upd m4.byte 4048 1 } = none := by
    rw [allocatorResetLoop, if_pos (by decide)]
    simp only [bind, StateT.bind]
    rw [readP_run (acc_iff.2 ⟨4048, 4032, by simp only [l4]; exact upd_same .., by decide, by decide⟩)]
    simp only [Option.bind_some, hrd, afree, l4, upd_same, Option.isSome_some, if_true]
    rw [allocatorResetLoop, if_pos (by decide)]
    simp only [bind, StateT.bind, readP]
    rw [if_neg]
    · rfl
    · intro h
      obtain ⟨b, n, h1, h2, _⟩ := acc_iff.1 h
      simp only [l3] at h1
      have : b ≠ 16 := by omega
      have h4 : b ≠ 4048 := by omega
      rw [upd_ne h4, upd_ne h4, upd_ne this] at h1
      cases h1
  simp only [step, bind, upd_same, Option.bind_some, allocatorDone, allocatorReset, StateT.bind, hbad, Option.bind_none] at e
  cases e

/-- The second part of C29 is false: with blocks of 8 bytes the last one of the segment is after it, in a region of the program.
    Once the block is free, the program that writes in its region cuts the list of the free blocks: the next alloc() asks new
    memory although a block is free. -/
theorem C29_reuse_false : ¬ ∀ s a, (sys 0 anyUse).Reach s a → ∀ id base content p s', legal 0 anyUse a (.alloc id base content) →
    step 0 (.alloc id base content) s = some (.block p true, s') → ∀ P, a.pool id = some P → ∀ q ∈ P.ever, q ∈ P.used := by
  intro hall
  have r0 : (sys 0 anyUse).Reach ⟨⟨fun _ => 0, fun _ => none⟩, fun _ => none⟩ ⟨fun _ => none, fun _ => none⟩ :=
    .init ⟨fun _ => rfl, fun _ => rfl, fun _ => rfl, fun _ => rfl⟩
  -- the regions of the program
  obtain ⟨env, henv⟩ : ∃ env : Nat → Option Nat, env = upd (upd (fun _ => none) 4048 (some 8)) 14032 (some 8) := ⟨_, rfl⟩
  have hz : ∀ b n, ¬ Ab.Region ⟨fun _ => none, fun _ => none⟩ b n := fun b n h => by
    obtain ⟨id, P, h1, _⟩ := region_pool h fun _ => rfl
    cases h1
  have r1 := Sys.Reach.step (sys := sys 0 anyUse) (op := .emalloc 4048 8 fun _ => 0) r0
    ⟨trivial, by decide, by decide, fun n h => absurd h (hz _ _), fun b n h => absurd h (hz _ _)⟩ rfl
  have hz1 : ∀ b n, Ab.Region ⟨fun _ => none, upd (fun _ => none) 4048 (some 8)⟩ b n → b = 4048 ∧ n = 8 := fun b n h => by
    rcases h with h | ⟨id, P, h1, _⟩
    · simp only [upd] at h; split at h <;> cases h; exact ⟨by assumption, rfl⟩
    · cases h1
  have r2 := Sys.Reach.step (sys := sys 0 anyUse) (op := .emalloc 14032 8 fun _ => 0) r1
    ⟨trivial, by decide, by decide, fun n h => by have := hz1 _ _ h; omega, fun b n h => by obtain ⟨rfl, rfl⟩ := hz1 _ _ h; decide⟩ rfl
  have r3 := Sys.Reach.step (sys := sys 0 anyUse) (op := .init 0 8 8) r2 ⟨rfl, by decide, by decide, trivial⟩ rfl
  have r3 : (sys 0 anyUse).Reach ⟨⟨fun x => if 14032 ≤ x ∧ x < 14040 then 0 else if 4048 ≤ x ∧ x < 4056 then 0 else 0, env⟩,
      upd (fun _ => none) 0 (some ⟨0, 0, 8, 8, 0⟩)⟩ ⟨upd (fun _ => none) 0 (some ⟨8, 8, [], [], []⟩), env⟩ := by rw [henv]; exact r3
  obtain ⟨m0, hm0⟩ : ∃ m0 : AMem, m0 = ⟨fun x => if 14032 ≤ x ∧ x < 14040 then 0 else if 4048 ≤ x ∧ x < 4056 then 0 else 0, env⟩ := ⟨_, rfl⟩
  rw [← hm0] at r3
  have hm0l : m0.live = env := by rw [hm0]
  -- all the regions in the states that follow
  have hreg : ∀ P b n, P.bs = 8 → P.al = 8 → (∀ x ∈ P.segs, x = 16) → Ab.Region ⟨upd (fun _ => none) 0 (some P), env⟩ b n →
      (b = 4048 ∧ n = 8) ∨ (b = 14032 ∧ n = 8) ∨ (b = 16 ∧ n = 4032) := by
    intro P b n h1 h2 h3 h
    rcases h with h | ⟨id, Q, h, h4, h5⟩
    · rw [henv] at h
      simp only [upd] at h
      split at h
      · cases h; omega
      · split at h <;> cases h; omega
    · simp only [upd] at h
      split at h <;> cases h
      rw [h1, h2] at h5
      exact Or.inr (Or.inr ⟨h3 b h4, h5⟩)
  have hfresh : ∀ P base, P.bs = 8 → P.al = 8 → (∀ x ∈ P.segs, x = 16) → base = 10000 ∨ base = 20000 →
      Ab.Fresh ⟨upd (fun _ => none) 0 (some P), env⟩ 0 base (segSize P.bs P.al) := by
    intro P base h1 h2 h3 h4
    have hs : segSize P.bs P.al = 4032 := by rw [h1, h2]; rfl
    rw [hs]
    refine ⟨by omega, by (simp only [size64] at *; omega), fun n h => ?_, fun b n h => ?_⟩ <;> rcases hreg P _ _ h1 h2 h3 h with h | h | h <;> omega
  -- the first segment: 504 blocks, the last one in the region of the program
  obtain ⟨m4, e4, l4, x4, z4, c4⟩ := segment_run8 (base := 16) (bs := 8) (n := 503) (content := fun _ => 0) (t := ⟨0, 0, 8, 8, 0⟩)
    (m := m0) (by decide) (by decide) (by decide) rfl rfl rfl (by decide) (by decide) (by decide) (by decide)
    (fun i hi => by
      rw [hm0l, henv]
      by_cases h : i = 503
      · exact ⟨4048, 8, rfl, by omega, by omega⟩
      · exact ⟨16, 4032, upd_same .., by omega, by omega⟩)
  rw [hm0l] at l4
  have acc : ∀ (f : Nat → Nat) p, (16 ≤ p ∧ p + 8 ≤ 4048) ∨ p = 4048 → AMem.acc ⟨f, upd env 16 (some 4032)⟩ p ptrSize = true := by
    intro f p h
    rcases h with h | rfl
    · exact acc_of (b := 16) (n := 4032) (upd_same env 16 (some 4032)) h.1 (by simp only [size64] at *; omega)
    · exact acc_iff.2 ⟨4048, 8, by rw [henv]; rfl, by decide, by decide⟩
  have hm4 : m4 = ⟨m4.byte, upd env 16 (some 4032)⟩ := by rw [← l4]
  obtain ⟨-, -, c4⟩ := c4
  obtain ⟨c5, -, c4⟩ := c4
  obtain ⟨c6, -, -⟩ := c4
  have c5 : rdP m4.byte 4048 = 4040 := c5
  have c6 : rdP m4.byte 4040 = 4032 := c6
  have f4 := alloc_new (p := 4048) rfl e4 rfl (by rw [hm4]; exact acc _ _ (Or.inr rfl))
  have h16 : env 16 = none := by rw [henv]; rfl
  have no16 : ∀ n, ¬ Ab.Region ⟨upd (fun _ => none) 0 (some ⟨8, 8, [], [], []⟩), env⟩ 16 n := by
    intro n h
    rcases h with h | ⟨id, P, h1, h2, _⟩
    · cases h16.symm.trans h
    · simp only [upd] at h1
      split at h1 <;> cases h1
      cases h2
  have h20 : env 20000 = none := by rw [henv]; rfl
  have h10 : env 10000 = none := by rw [henv]; rfl
  have hlive : ∀ b, b = 10000 ∨ b = 20000 → upd env 16 (some 4032) b = none := by
    intro b hb
    rw [upd_ne (by omega)]
    rcases hb with rfl | rfl <;> assumption
  have r4 : (sys 0 anyUse).Reach ⟨m4, upd (fun _ => none) 0 (some ⟨4040, 16, 8, 8, 1⟩)⟩
      ⟨upd (fun _ => none) 0 (some ⟨8, 8, [4048], [4048], [16]⟩), env⟩ := by
    have h := Sys.Reach.step (sys := sys 0 anyUse) (op := .alloc 0 16 fun _ => 0) (out := .block 4048 true)
      (s' := ⟨m4, upd (upd (fun _ => none) 0 (some ⟨0, 0, 8, 8, 0⟩)) 0 (some ⟨4040, 16, 8, 8, 1⟩)⟩) r3
      ⟨trivial, ⟨8, 8, [], [], []⟩, rfl, by decide, by decide,
        fun n => no16 n, fun b n h => by
          show 16 + 4032 + 0 ≤ b ∨ b + n + 0 ≤ 16
          have : b ≠ 16 := by
            rintro rfl
            exact no16 n h
          rcases hreg _ _ _ rfl rfl (by simp) h with h | h | h <;> omega⟩ (by
        simp only [sys, step, bind, upd_same, Option.bind_some, f4, l4, c5, hm0l, h16]
        rfl)
    have hn : (sys 0 anyUse).next ⟨upd (fun _ => none) 0 (some ⟨8, 8, [], [], []⟩), env⟩ (.alloc 0 16 fun _ => 0) (.block 4048 true) =
        ⟨upd (upd (fun _ => none) 0 (some ⟨8, 8, [], [], []⟩)) 0 (some ⟨8, 8, [4048], [4048], [16]⟩), env⟩ := rfl
    rw [hn, upd_twice, upd_twice] at h; exact h
  have r5 : (sys 0 anyUse).Reach ⟨m4, upd (fun _ => none) 0 (some ⟨4032, 16, 8, 8, 2⟩)⟩
      ⟨upd (fun _ => none) 0 (some ⟨8, 8, [4040, 4048], [4040, 4048], [16]⟩), env⟩ := by
    have f5 := alloc_pop (base := 20000) (content := fun _ => 0) (p := 4040) (t := ⟨4040, 16, 8, 8, 1⟩) (m := m4) rfl (by decide)
      (by rw [hm4]; exact acc _ _ (Or.inl (by decide)))
    have h := Sys.Reach.step (sys := sys 0 anyUse) (op := .alloc 0 20000 fun _ => 0) (out := .block 4040 false)
      (s' := ⟨m4, upd (upd (fun _ => none) 0 (some ⟨4040, 16, 8, 8, 1⟩)) 0 (some ⟨4032, 16, 8, 8, 2⟩)⟩) r4
      ⟨trivial, _, rfl, hfresh _ _ rfl rfl (by simp) (by simp)⟩ (by
        simp only [sys, step, bind, upd_same, Option.bind_some, f5, c6, l4, hlive 20000 (by simp)]
        rfl)
    have hn : (sys 0 anyUse).next ⟨upd (fun _ => none) 0 (some ⟨8, 8, [4048], [4048], [16]⟩), env⟩ (.alloc 0 20000 fun _ => 0) (.block 4040 false) =
        ⟨upd (upd (fun _ => none) 0 (some ⟨8, 8, [4048], [4048], [16]⟩)) 0 (some ⟨8, 8, [4040, 4048], [4040, 4048], [16]⟩), env⟩ := rfl
    rw [hn, upd_twice, upd_twice] at h; exact h
  have r6 : (sys 0 anyUse).Reach ⟨⟨wrP m4.byte 4040 4032, upd env 16 (some 4032)⟩, upd (fun _ => none) 0 (some ⟨4040, 16, 8, 8, 1⟩)⟩
      ⟨upd (fun _ => none) 0 (some ⟨8, 8, [4048], [4040, 4048], [16]⟩), env⟩ := by
    have h := Sys.Reach.step (sys := sys 0 anyUse) (op := .free 0 4040) (out := .unit)
      (s' := ⟨⟨wrP m4.byte 4040 4032, upd env 16 (some 4032)⟩, upd (upd (fun _ => none) 0 (some ⟨4032, 16, 8, 8, 2⟩)) 0 (some ⟨4040, 16, 8, 8, 1⟩)⟩) r5
      ⟨_, rfl, by simp⟩ (by
        simp only [sys, step, bind, upd_same, Option.bind_some, allocatorFree, StateT.bind]
        rw [hm4, writeP_run (acc _ _ (Or.inl (by decide)))]
        rfl)
    have hn : (sys 0 anyUse).next ⟨upd (fun _ => none) 0 (some ⟨8, 8, [4040, 4048], [4040, 4048], [16]⟩), env⟩ (.free 0 4040) .unit =
        ⟨upd (upd (fun _ => none) 0 (some ⟨8, 8, [4040, 4048], [4040, 4048], [16]⟩)) 0 (some ⟨8, 8, [4048], [4040, 4048], [16]⟩), env⟩ := rfl
    rw [hn, upd_twice, upd_twice] at h; exact h
  have r7 : (sys 0 anyUse).Reach ⟨⟨wrP (wrP m4.byte 4040 4032) 4048 4040, upd env 16 (some 4032)⟩, upd (fun _ => none) 0 (some ⟨4048, 16, 8, 8, 0⟩)⟩
      ⟨upd (fun _ => none) 0 (some ⟨8, 8, [], [4040, 4048], [16]⟩), env⟩ := by
    have h := Sys.Reach.step (sys := sys 0 anyUse) (op := .free 0 4048) (out := .unit)
      (s' := ⟨⟨wrP (wrP m4.byte 4040 4032) 4048 4040, upd env 16 (some 4032)⟩, upd (upd (fun _ => none) 0 (some ⟨4040, 16, 8, 8, 1⟩)) 0 (some ⟨4048, 16, 8, 8, 0⟩)⟩) r6
      ⟨_, rfl, by simp⟩ (by
        simp only [sys, step, bind, upd_same, Option.bind_some, allocatorFree, StateT.bind]
        rw [writeP_run (m := ⟨wrP m4.byte 4040 4032, upd env 16 (some 4032)⟩) (acc (wrP m4.byte 4040 4032) 4048 (Or.inr rfl))]
        rfl)
    have hn : (sys 0 anyUse).next ⟨upd (fun _ => none) 0 (some ⟨8, 8, [4048], [4040, 4048], [16]⟩), env⟩ (.free 0 4048) .unit =
        ⟨upd (upd (fun _ => none) 0 (some ⟨8, 8, [4048], [4040, 4048], [16]⟩)) 0 (some ⟨8, 8, [], [4040, 4048], [16]⟩), env⟩ := rfl
    rw [hn, upd_twice, upd_twice] at h; exact h
  -- the program writes in its region
  have h48 : env 4048 = some 8 := by rw [henv]; rfl
  have r8 := Sys.Reach.step (sys := sys 0 anyUse) (op := .ewrite 4048 0) r7 (Or.inl ⟨4048, 8, h48, by decide, by decide⟩) rfl
  have r9 := Sys.Reach.step (sys := sys 0 anyUse) (op := .ewrite 4049 0) r8 (Or.inl ⟨4048, 8, h48, by decide, by decide⟩) rfl
  obtain ⟨f, hf⟩ : ∃ f, f = upd (upd (wrP (wrP m4.byte 4040 4032) 4048 4040) 4048 0) 4049 0 := ⟨_, rfl⟩
  have r9 : (sys 0 anyUse).Reach ⟨⟨f, upd env 16 (some 4032)⟩, upd (fun _ => none) 0 (some ⟨4048, 16, 8, 8, 0⟩)⟩
      ⟨upd (fun _ => none) 0 (some ⟨8, 8, [], [4040, 4048], [16]⟩), env⟩ := by rw [hf]; exact r9
  have hz : rdP f 4048 = 0 := by
    have hz : ∀ x, 4048 ≤ x → x < 4056 → f x = 0 := fun x h1 h2 => by
      rw [hf]
      simp only [upd]
      split
      · rfl
      · split
        · rfl
        · unfold wrP
          rw [if_pos ⟨h1, by (simp only [size64] at *; omega)⟩]
          obtain ⟨k, rfl⟩ : ∃ k, x = 4050 + k := ⟨x - 4050, by omega⟩
          have : k = 0 ∨ k = 1 ∨ k = 2 ∨ k = 3 ∨ k = 4 ∨ k = 5 := by omega
          rcases this with rfl | rfl | rfl | rfl | rfl | rfl <;> decide
    rw [rdP_eight, hz 4048 (by decide) (by decide), hz (4048 + 1) (by decide) (by decide), hz (4048 + 2) (by decide) (by decide), hz (4048 + 3) (by decide) (by decide),
      hz (4048 + 4) (by decide) (by decide), hz (4048 + 5) (by decide) (by decide), hz (4048 + 6) (by decide) (by decide),
      hz (4048 + 7) (by decide) (by decide)]
  have r10 : (sys 0 anyUse).Reach ⟨⟨f, upd env 16 (some 4032)⟩, upd (fun _ => none) 0 (some ⟨0, 16, 8, 8, 1⟩)⟩
      ⟨upd (fun _ => none) 0 (some ⟨8, 8, [4048], [4048, 4040, 4048], [16]⟩), env⟩ := by
    have f5 := alloc_pop (base := 20000) (content := fun _ => 0) (p := 4048) (t := ⟨4048, 16, 8, 8, 0⟩) (m := ⟨f, upd env 16 (some 4032)⟩) rfl (by decide)
      (acc _ _ (Or.inr rfl))
    have h := Sys.Reach.step (sys := sys 0 anyUse) (op := .alloc 0 20000 fun _ => 0) (out := .block 4048 false)
      (s' := ⟨⟨f, upd env 16 (some 4032)⟩, upd (upd (fun _ => none) 0 (some ⟨4048, 16, 8, 8, 0⟩)) 0 (some ⟨0, 16, 8, 8, 1⟩)⟩) r9
      ⟨trivial, _, rfl, hfresh _ _ rfl rfl (by simp) (by simp)⟩ (by
        simp only [sys, step, bind, upd_same, Option.bind_some, f5, hz, hlive 20000 (by simp)]
        rfl)
    have hn : (sys 0 anyUse).next ⟨upd (fun _ => none) 0 (some ⟨8, 8, [], [4040, 4048], [16]⟩), env⟩ (.alloc 0 20000 fun _ => 0) (.block 4048 false) =
        ⟨upd (upd (fun _ => none) 0 (some ⟨8, 8, [], [4040, 4048], [16]⟩)) 0 (some ⟨8, 8, [4048], [4048, 4040, 4048], [16]⟩), env⟩ := rfl
    rw [hn, upd_twice, upd_twice] at h; exact h
  -- a new segment, although 4040 is free
  obtain ⟨m11, e11, l11, x11, z11, c11⟩ := segment_run8 (base := 10000) (bs := 8) (n := 503) (content := fun _ => 0) (t := ⟨0, 16, 8, 8, 1⟩)
    (m := ⟨f, upd env 16 (some 4032)⟩) (by decide) (by decide) (by decide) rfl rfl rfl (by decide) (by decide) (by decide) (by decide)
    (fun i hi => by
      rw [henv]
      by_cases h : i = 503
      · exact ⟨14032, 8, rfl, by omega, by omega⟩
      · exact ⟨10000, 4032, upd_same .., by omega, by omega⟩)
  have a11 : m11.acc 14032 8 = true := acc_iff.2 ⟨14032, 8, by rw [l11, henv]; rfl, by decide, by decide⟩
  have f11 := alloc_new (p := 14032) rfl e11 rfl a11
  have e : step 0 (.alloc 0 10000 fun _ => 0) ⟨⟨f, upd env 16 (some 4032)⟩, upd (fun _ => none) 0 (some ⟨0, 16, 8, 8, 1⟩)⟩ =
      some (.block 14032 true, ⟨m11, upd (upd (fun _ => none) 0 (some ⟨0, 16, 8, 8, 1⟩)) 0 (some ⟨rdP m11.byte 14032, 10000, 8, 8, 2⟩)⟩) := by
    simp only [step, bind, upd_same, Option.bind_some, f11, l11, hlive 10000 (by simp)]
    rfl
  have := hall _ _ r10 _ _ _ _ _ ⟨trivial, _, rfl, hfresh _ _ rfl rfl (by simp) (by simp)⟩ e _ rfl 4040 (by simp)
  simp at this

end Tommy
