import Verif.Proof.Alloc
import Mathlib.Data.List.Perm.Subperm
/-!
  Properties C27 - C30 (tommyalloc).
-/
set_option linter.unusedSimpArgs false
set_option autoImplicit false
namespace Tommy
variable [Arch]
open AllocSpec

/-- No restrictions on the sizes and on the addresses returned by malloc(). -/
def anyUse : Use := ⟨fun _ _ => True, fun _ => True⟩

/-! ### C27 -/

/-- With any number of allocators of any size, mixed with malloc(), free() and writes of the program everywhere in its
    memory, each call is without errors, and alloc() returns an aligned block that does not overlap with the memory
    of the program.

    It needs that the size of a pointer more than requested are usable in the memory returned by malloc(), as glibc does for the size
    used here. See C28 for what happens without. -/
theorem C27 (slack : Nat) (hs : ptrSize ≤ slack) (u : Use) : (sys slack u).Correct :=
  correct_alloc fun _ _ _ h _ _ _ _ => room_slack hs h

/-- `p` is a block of `n` bytes, in use, of the allocator `id`. -/
def LiveBlock (a : Ab) (id p n : Nat) : Prop := ∃ P, a.pool id = some P ∧ p ∈ P.used ∧ n = P.bs

theorem live_disjoint {slack : Nat} {s : St} {a : Ab} (h : AInv slack s a) {id p n id' p' n' : Nat}
    (h1 : LiveBlock a id p n) (h2 : LiveBlock a id' p' n') : (id = id' ∧ p = p') ∨ p + n ≤ p' ∨ p' + n' ≤ p := by
  obtain ⟨P, hP, hp, rfl⟩ := h1
  obtain ⟨P', hP', hp', rfl⟩ := h2
  obtain ⟨t, F, _, hi⟩ := h.get hP
  obtain ⟨t', F', _, hi'⟩ := h.get hP'
  obtain ⟨b, hb, h3, h4⟩ := hi.in_region hP (p := p) (by simp [hp])
  obtain ⟨b', hb', h5, h6⟩ := hi'.in_region hP' (p := p') (by simp [hp'])
  rcases h.reg.sep hb hb' with ⟨_, _, e⟩ | hsep
  · cases e
    rw [hP] at hP'; cases hP'
    by_cases e : p = p'
    · exact Or.inl ⟨rfl, e⟩
    · right
      have hpw := (List.pairwise_append.1 hi.apart).1
      have key : ∀ (l : List Nat), l.Pairwise (Off P.bs) → p ∈ l → p' ∈ l → Off P.bs p p' := by
        intro l hl
        induction hl with
        | nil => intro h; cases h
        | cons hx _ ih =>
          intro h1' h2'
          rcases List.mem_cons.1 h1' with h1 | h1 <;> rcases List.mem_cons.1 h2' with h2 | h2
          · exact absurd (h1.trans h2.symm) e
          · rw [h1]; exact hx _ h2
          · rw [h2]; exact off_symm (hx _ h1)
          · exact ih h1 h2
      exact key _ hpw hp hp'
  · right; omega

/-- In each moment the blocks in use, of all the allocators, are aligned, and do not overlap with each other and with
    the memory that the program obtained directly from malloc(). -/
theorem C27_disjoint (slack : Nat) (hs : ptrSize ≤ slack) (u : Use) (s a) (hr : (sys slack u).Reach s a) :
    (∀ id P, a.pool id = some P → P.used.Nodup ∧ ∀ p ∈ P.used, 0 < p ∧ p % P.al = 0 ∧ P.bs % P.al = 0 ∧ ptrSize ≤ P.al) ∧
    (∀ id p n id' p' n', LiveBlock a id p n → LiveBlock a id' p' n' → (id = id' ∧ p = p') ∨ p + n ≤ p' ∨ p' + n' ≤ p) ∧
    ∀ id p n b k, LiveBlock a id p n → a.env b = some k → p + n ≤ b ∨ b + k ≤ p := by
  have h := (reach_alloc (fun _ _ _ h _ _ _ _ => room_slack hs h) s a hr).1
  refine ⟨fun id P hP => ?_, fun id p n id' p' n' => live_disjoint h, ?_⟩
  · obtain ⟨t, F, _, hi⟩ := h.get hP
    refine ⟨?_, fun p hp => ?_⟩
    · refine ((List.pairwise_append.1 hi.apart).1).imp fun {x y} hxy e => ?_
      have := hi.bs8
      unfold Off at hxy
      arch
    · obtain ⟨h1, b, hb, h2, _⟩ := hi.blk p (by simp [hp])
      exact ⟨by arch, h1, hi.mul, hi.al8⟩
  · rintro id p n b k ⟨P, hP, hp, rfl⟩ hk
    obtain ⟨t, F, _, hi⟩ := h.get hP
    obtain ⟨b', hb', h3, h4⟩ := hi.in_region hP (p := p) (by simp [hp])
    have hk' : RegionO a b k none := hk
    rcases h.reg.sep hb' hk' with ⟨_, _, e⟩ | hsep
    · cases e
    · omega

/-- The allocator does not write in the memory of the program, but in the blocks that are freed or not yet allocated. -/
theorem C27_bytes (slack : Nat) (hs : ptrSize ≤ slack) (u : Use) (s a) (hr : (sys slack u).Reach s a) (op r s')
    (hl : legal slack u a op) (hc : isCall op) (he : step slack op s = some (r, s')) (x : Nat) (h1 : a.UserByte x)
    (h2 : (next a op r).UserByte x) : s'.mem.byte x = s.mem.byte x := by
  have h := reach_alloc (fun _ _ _ h _ _ _ _ => room_slack hs h) s a hr
  obtain ⟨r', s'', e, _, _, hk⟩ := step_ok (fun _ _ _ h _ _ _ _ => room_slack hs h) h hl
  rw [he] at e; cases e
  exact hk hc x h1 h2

/-- The sizes used: the alignment is at least the size of a pointer, and the size is rounded to a multiple of it. -/
theorem C27_sizes (bs al : Nat) (h0 : 0 < bs) (h : ptrSize + realAlign al + realSize bs al < 2 ^ sizeBit) :
    (allocatorInit bs al).blockSize = realSize bs al ∧ (allocatorInit bs al).alignSize = realAlign al ∧
      bs ≤ realSize bs al ∧ realSize bs al < bs + realAlign al ∧ al ≤ realAlign al ∧ realSize bs al % realAlign al = 0 := by
  obtain ⟨e, h1, _, h3, h4⟩ := init_real h0 h
  rw [e]
  refine ⟨rfl, rfl, h4, ?_, Nat.le_max_left _ _, h3⟩
  unfold realSize
  have := Nat.div_mul_le_self (bs + realAlign al - 1) (realAlign al)
  omega

/-! ### C28: false -/

/-- The first block of a new allocator, with malloc() returning `base`. -/
def firstAlloc (slack bs al base : Nat) (content : Nat → Nat) (m : AMem) : Option ((Alloc × Nat) × AMem) :=
  allocatorAlloc slack base content (allocatorInit bs al) m

/-- The first alloc() works and returns a block inside the segment just obtained from malloc() (and its slack) if and
    only if `Room` holds. -/
theorem C28_first (slack bs al base : Nat) (content : Nat → Nat) (m : AMem) (h0 : 0 < bs)
    (h : ptrSize + realAlign al + realSize bs al < 2 ^ sizeBit) (hb : 0 < base)
    (hlt : base + ptrSize + realAlign al + segSize (realSize bs al) (realAlign al) + slack < 2 ^ sizeBit) :
    (∃ t p m', firstAlloc slack bs al base content m = some ((t, p), m') ∧ base ≤ p ∧
      p + realSize bs al ≤ base + segSize (realSize bs al) (realAlign al) + slack) ↔
    Room slack (realSize bs al) (realAlign al) base := by
  obtain ⟨e, h8, hb8, hm, _⟩ := init_real h0 h
  generalize realSize bs al = B at *
  generalize realAlign al = A at *
  have hi : PoolInv slack m ⟨0, 0, B, A, 0⟩ ⟨B, A, [], [], []⟩ [] :=
    ⟨rfl, rfl, h8, hb8, hm, h, rfl, rfl, rfl, by simp, by simp, by simp, by simp, by simp, by simp⟩
  constructor
  · rintro ⟨t, p, m', he, h1, h2⟩
    unfold firstAlloc allocatorAlloc at he
    rw [e] at he
    simp only [bind, StateT.bind, if_true] at he
    cases hs : allocatorSegment slack base content ⟨0, 0, B, A, 0⟩ m with
    | none => rw [hs] at he; simp at he
    | some r =>
      rw [hs] at he
      simp only [Option.bind_some] at he
      have hp : r.1.freeBlock = p := by
        cases hr : readP r.1.freeBlock r.2 with
        | none => rw [hr] at he; simp at he
        | some v =>
          rw [hr] at he
          simp only [Option.bind_some, pure, StateT.pure, Option.some.injEq, Prod.mk.injEq] at he
          exact he.1.2
      have hge := segSize_ge B A
      have hpad := pad_lt (base := base) h8
      unfold Room
      generalize hS : segSize B A = S at *
      generalize hpd : pad A base = pd at *
      have hn1 : 0 < (S - pd) / B := Nat.div_pos (by omega) (by omega)
      obtain ⟨n, hn⟩ : ∃ n, (S - pd) / B = n + 1 := ⟨(S - pd) / B - 1, by omega⟩
      have hdm := Nat.div_add_mod (S - pd) B
      have hml := Nat.mod_lt (S - pd) (show B > 0 by omega)
      rw [hn] at hdm ⊢
      rw [Nat.mul_comm] at hdm
      have hk : r.1.freeBlock = base + ptrSize + pd + n * B := by
        have g1 : addT (addT ptrSize A) B = ptrSize + A + B := by unfold addT; arch
        have g2 : (if allocatorBlockSize < ptrSize + A + B then ptrSize + A + B else allocatorBlockSize) = S := by
          rw [← hS]; unfold segSize allocatorBlockSize; split <;> omega
        have g3 : addT base ptrSize = base + ptrSize := by unfold addT; arch
        unfold allocatorSegment at hs
        simp only [g1, g2, g3, StateT.bind, bind, amalloc, Option.bind_some] at hs
        split at hs <;> rename_i hmis
        · have g4 : subT A ((base + ptrSize) % A) = pd := by
            rw [← hpd]; unfold pad subT; rw [if_neg hmis]
            have := Nat.mod_lt (base + ptrSize) (show A > 0 by omega)
            arch
          have g5 : addT (base + ptrSize) pd = base + ptrSize + pd := by unfold addT; arch
          have g6 : subT S pd = S - pd := by unfold subT; arch
          rw [g4, g5, g6] at hs
          obtain ⟨w, _, hs⟩ := Option.bind_eq_some_iff.1 hs
          exact pushLoop_head (bs := B) n _ _ _ _ rfl hb8 (by omega) (by omega) (by omega) (by omega) r hs
        · have hp0 : pd = 0 := by
            rw [← hpd]; unfold pad; rw [if_pos (by omega)]
          subst hp0
          obtain ⟨w, _, hs⟩ := Option.bind_eq_some_iff.1 hs
          exact pushLoop_head (bs := B) n _ _ _ _ rfl hb8 (by omega) (by omega) (by omega) (by omega) r hs
      have : (n + 1) * B = n * B + B := by rw [Nat.add_mul, Nat.one_mul]
      omega
  · intro hroom
    obtain ⟨m', t', F', e1, ⟨hne, _⟩, hi', hl', hb'⟩ := hi.segment content hb (by simp only; omega) (fun b hb => by simp at hb) hroom
    obtain ⟨p, F, rfl⟩ := List.exists_cons_of_ne_nil hne
    obtain ⟨h1, h2, h3⟩ := hi'.pop
    obtain ⟨hal, b, hb, h4, h5⟩ := hi'.blk p (by simp)
    have hb : b = base := by simpa using hb
    subst hb
    refine ⟨{ t' with freeBlock := rdP m'.byte p, count := addT t'.count 1 }, p, m', ?_, by omega, h5⟩
    · unfold firstAlloc allocatorAlloc
      rw [e]
      simp only [bind, StateT.bind, if_true, e1, Option.bind_some, h1, h2]
      rfl

/-- C28 is false: with blocks of the size of a pointer, aligned at it, and malloc() returning memory aligned at 16 bytes
    as usual, the first alloc() does not return a block inside the segment. -/
theorem C28_false : ¬ ∀ bs al base content m, 0 < bs → base % 16 = 0 → 0 < base → base < 2 ^ (sizeBit - 16) → bs < 2 ^ (sizeBit - 16) → al < 2 ^ (sizeBit - 16) →
    ∃ t p m', firstAlloc 0 bs al base content m = some ((t, p), m') ∧ base ≤ p ∧
      p + realSize bs al ≤ base + segSize (realSize bs al) (realAlign al) := by
  intro h
  have h := (C28_first 0 ptrSize ptrSize 16 (fun _ => 0) ⟨fun _ => 0, fun _ => none⟩ (by archd) (by archd) (by decide) (by archd)).1
    (h ptrSize ptrSize 16 _ _ (by archd) (by decide) (by decide) (by archd) (by archd) (by archd))
  revert h
  unfold Room
  archd

/-- When that many bytes more are usable, the program does not notice, but the block returned is the one just after the 4032
    bytes requested: no byte of it was requested to malloc(). -/
theorem C28_outside (base : Nat) (content : Nat → Nat) (m : AMem) (hb : 0 < base) (hb8 : base % ptrSize = 0) (hlt : base < 2 ^ (sizeBit - 1)) :
    ∃ t m', firstAlloc ptrSize ptrSize ptrSize base content m = some ((t, base + 4032), m') := by
  have hi : PoolInv ptrSize m ⟨0, 0, ptrSize, ptrSize, 0⟩ ⟨ptrSize, ptrSize, [], [], []⟩ [] :=
    ⟨rfl, rfl, by archd, by archd, by archd, by archd, rfl, rfl, rfl, by simp, by simp, by simp, by simp, by simp, by simp⟩
  obtain ⟨m', t', F', e1, ⟨hne, _⟩, hi', hl', hb'⟩ := hi.segment content hb (by simp only [segSize]; arch) (fun b hb => by simp at hb)
    (room_slack (by archd) (by archd))
  obtain ⟨p, F, rfl⟩ := List.exists_cons_of_ne_nil hne
  obtain ⟨h1, h2, h3⟩ := hi'.pop
  have hseg : p = base + 4032 := by
    rw [← h1]
    unfold allocatorSegment at e1
    have g3 : addT base ptrSize = base + ptrSize := by unfold addT; arch
    simp only [g3, StateT.bind, bind, amalloc, Option.bind_some] at e1
    obtain ⟨w, _, e1⟩ := Option.bind_eq_some_iff.1 e1
    have hmis : (base + ptrSize) % ptrSize = 0 := by arch
    have hsz : (if allocatorBlockSize < addT (addT ptrSize ptrSize) ptrSize then addT (addT ptrSize ptrSize) ptrSize else allocatorBlockSize) = 4032 := by archd
    simp only [hmis, hsz, ne_eq, not_true_eq_false, if_false] at e1
    have hh := pushLoop_head (bs := ptrSize) (4032 / ptrSize - 1) _ _ _ _ rfl (by archd) (by archd) (by archd) (by archd) (by arch) _ e1
    rw [hh]; arch
  subst hseg
  refine ⟨{ t' with freeBlock := rdP m'.byte (base + 4032), count := addT t'.count 1 }, m', ?_⟩
  unfold firstAlloc allocatorAlloc
  have e : allocatorInit ptrSize ptrSize = ⟨0, 0, ptrSize, ptrSize, 0⟩ := by cases ‹Arch› <;> rfl
  rw [e]
  simp only [bind, StateT.bind, if_true, e1, Option.bind_some, h1, h2]
  rfl

/-- The blocks are inside the requested memory with no help from malloc() only when the sizes and the addresses are such
    that the division in blocks leaves the size of a pointer (`RoomFor 0`, see `C28_room`): then all the calls are right, and each
    block is in a segment that is live.

    What is missing for C28 are the other sizes, for which it is false. -/
theorem C28_partial (u : Use) (hu : RoomFor 0 u) : (sys 0 u).Correct ∧
    ∀ s a, (sys 0 u).Reach s a → ∀ id P, a.pool id = some P → ∀ p ∈ P.used,
      ∃ b ∈ P.segs, s.mem.live b = some (segSize P.bs P.al) ∧ b ≤ p ∧ p + P.bs ≤ b + segSize P.bs P.al := by
  refine ⟨correct_alloc hu, fun s a hr id P hP p hp => ?_⟩
  obtain ⟨t, F, _, hi⟩ := (reach_alloc hu s a hr).1.get hP
  obtain ⟨_, b, hb, h1, h2⟩ := hi.blk p (by simp [hp])
  exact ⟨b, hb, (hi.live b hb).1, by omega, by omega⟩

/-- With more usable bytes: inside the segment plus the usable bytes, for all the sizes. -/
theorem C28_slack (slack : Nat) (hs : ptrSize ≤ slack) (u : Use) (s a) (hr : (sys slack u).Reach s a) (id P)
    (hP : a.pool id = some P) (p : Nat) (hp : p ∈ P.used) :
    ∃ b ∈ P.segs, s.mem.live b = some (segSize P.bs P.al + slack) ∧ b ≤ p ∧ p + P.bs ≤ b + segSize P.bs P.al + slack := by
  obtain ⟨t, F, _, hi⟩ := (reach_alloc (fun _ _ _ h _ _ _ _ => room_slack hs h) s a hr).1.get hP
  obtain ⟨_, b, hb, h1, h2⟩ := hi.blk p (by simp [hp])
  exact ⟨b, hb, (hi.live b hb).1, by omega, by omega⟩

theorem C28_room (bs al base : Nat) (h : ptrSize ≤ al) :
    Room 0 bs al base ↔ ptrSize ≤ (segSize bs al - pad al base) % bs := room_iff h

/-- The use of tommytrie.c: blocks of 64 bytes aligned at 64 bytes, malloc() aligned at two pointers. They are
    inside the segments. -/
def trieUse : Use := ⟨fun bs al => bs = 64 ∧ al = 64, fun b => b % (2 * ptrSize) = 0⟩

theorem C28_trie_partial : RoomFor 0 trieUse := by
  rintro bs al base _ _ _ ⟨rfl, rfl⟩ hb
  have hb : base % (2 * ptrSize) = 0 := hb
  rw [C28_room _ _ _ (by archd)]
  unfold segSize pad
  split <;> arch

/-! ### C29 -/

omit [Arch] in
theorem packed {bs N : Nat} {l : List Nat} (hp : l.Pairwise (Off bs)) (h0 : ∀ p ∈ l, 0 < p ∧ p + bs ≤ N) :
    l.length * bs ≤ N := by
  have hnd : (l.flatMap fun p => List.range' p bs).Nodup := by
    induction hp with
    | nil => simp
    | cons hx _ ih =>
      rename_i x xs _
      rw [List.flatMap_cons, List.nodup_append]
      refine ⟨List.nodup_range', ih fun p hp => h0 p (by simp [hp]), ?_⟩
      intro y hy z hz e
      obtain ⟨q, hq, hz⟩ := List.mem_flatMap.1 hz
      rw [List.mem_range'_1] at hy hz
      have := hx q hq
      unfold Off at this
      omega
  have hsub : (l.flatMap fun p => List.range' p bs) ⊆ List.range N := by
    intro y hy
    obtain ⟨q, hq, hy⟩ := List.mem_flatMap.1 hy
    rw [List.mem_range'_1] at hy
    have := h0 q hq
    rw [List.mem_range]; omega
  have hlen := (List.subperm_of_subset hnd hsub).length_le
  have : (l.flatMap fun p => List.range' p bs).length = l.length * bs := by
    clear hnd hsub hlen hp h0
    induction l with
    | nil => simp
    | cons x xs ih => rw [List.flatMap_cons, List.length_append, ih, List.length_range', List.length_cons, Nat.add_mul]; omega
  rw [this, List.length_range] at hlen
  omega

/-- memory_usage() is exactly the size of the blocks in use (there is no overflow). -/
theorem C29_usage_partial (slack : Nat) (u : Use) (hu : RoomFor slack u) (s a) (hr : (sys slack u).Reach s a) (id P t)
    (hP : a.pool id = some P) (ht : s.al id = some t) : allocatorMemoryUsage t = P.used.length * P.bs := by
  have h := (reach_alloc hu s a hr).1
  obtain ⟨t', F, ht', hi⟩ := h.get hP
  rw [ht] at ht'; cases ht'
  have hpk := packed (N := 2 ^ sizeBit - 1) (List.pairwise_append.1 hi.apart).1 fun p hp => by
    obtain ⟨_, b, hb, h1, h2⟩ := hi.blk p (by simp [hp])
    have := hi.live b hb
    omega
  unfold allocatorMemoryUsage
  rw [hi.count, hi.bs, Nat.mod_mul_mod, Nat.mod_eq_of_lt (by arch)]

/-- alloc() asks new memory only when all the blocks ever returned are in use, and also all the ones of the segments:
    at least `minBlocks` for each. -/
theorem C29_reuse_partial (slack : Nat) (u : Use) (hu : RoomFor slack u) (s a) (hr : (sys slack u).Reach s a) (id base content r s')
    (hl : legal slack u a (.alloc id base content)) (he : step slack (.alloc id base content) s = some (r, s')) :
    ∃ P p new, a.pool id = some P ∧ r = .block p new ∧ (s'.mem.live ≠ s.mem.live → new = true) ∧
      (new = true → (∀ q ∈ P.ever, q ∈ P.used) ∧ P.segs.length * minBlocks P.bs P.al ≤ P.used.length) := by
  have h := reach_alloc hu s a hr
  obtain ⟨r', s'', e, ha, hinv, _⟩ := step_ok hu h hl
  rw [he] at e; cases e
  obtain ⟨P, p, new, hP, rfl, _, _, _, hn⟩ := ha
  refine ⟨P, p, new, hP, rfl, fun hne => ?_, hn⟩
  by_contra hnew
  have hnew : new = false := by simpa using hnew
  subst hnew
  apply hne
  funext b
  have hiff : ∀ n, s'.mem.live b = some n ↔ s.mem.live b = some n := fun n => by
    rw [hinv.reg.live, h.1.reg.live]
    have : ∀ k o, RegionO (next a (.alloc id base content) (.block p false)) b k o ↔ RegionO a b k o := fun k o => by
      simp only [next, hP, Bool.false_eq_true, if_false]
      rw [regionO_upd hP (by rfl) (by rfl)]
      by_cases eo : o = some id
      · subst eo; simp [RegionO, hP]
      · simp [eo]
    simp only [this]
  cases h1 : s.mem.live b with
  | some n => exact (hiff n).2 h1
  | none =>
    cases h2 : s'.mem.live b with
    | none => rfl
    | some n => rw [(hiff n).1 h2] at h1; cases h1

/-! ### C30 -/

/-- In each moment the memory obtained from malloc() and not freed is exactly the one of the program and the segments of
    the allocators. -/
theorem C30_live_partial (slack : Nat) (u : Use) (hu : RoomFor slack u) (s a) (hr : (sys slack u).Reach s a) (b n : Nat) :
    s.mem.live b = some n ↔ ∃ k, n = k + slack ∧ a.Region b k := by
  rw [(reach_alloc hu s a hr).1.reg.live]
  simp only [region_iff]
  constructor
  · rintro ⟨k, o, h1, h2⟩; exact ⟨k, h1, o, h2⟩
  · rintro ⟨k, h1, o, h2⟩; exact ⟨k, o, h1, h2⟩

/-- done() frees the segments of the allocator (freeing twice, or something else, would be an error), and only them. The
    allocator is like a new one: by `C27` it can be used again. -/
theorem C30_partial (slack : Nat) (u : Use) (hu : RoomFor slack u) (s a) (hr : (sys slack u).Reach s a) (id P)
    (hP : a.pool id = some P) :
    ∃ s' t, step slack (.done id) s = some (.unit, s') ∧ s'.mem.byte = s.mem.byte ∧
      (∀ b, s'.mem.live b = if b ∈ P.segs then none else s.mem.live b) ∧
      (∀ b ∈ P.segs, s.mem.live b = some (segSize P.bs P.al + slack)) ∧
      s'.al id = some t ∧ t = ⟨0, 0, P.bs, P.al, 0⟩ ∧
      (sys slack u).Reach s' { a with pool := upd a.pool id (some ⟨P.bs, P.al, [], [], []⟩) } := by
  have h := (reach_alloc hu s a hr).1
  obtain ⟨s', e, hinv, h1, h2⟩ := step_done h hP
  obtain ⟨t, F, ht, hi⟩ := h.get hP
  have hl : (sys slack u).legal a (.done id) := ⟨P, hP⟩
  have hr' := Sys.Reach.step (sys := sys slack u) (op := .done id) hr hl e
  have hnext : (sys slack u).next a (.done id) .unit = { a with pool := upd a.pool id (some ⟨P.bs, P.al, [], [], []⟩) } := by
    simp only [sys, next, hP]
  rw [hnext] at hr'
  have hal : s'.al id = some { t with count := 0, freeBlock := 0, usedSegment := 0 } := by
    simp only [step, ht, Option.bind_eq_bind, Option.bind_some, allocatorDone, allocatorReset, StateT.bind, bind] at e
    obtain ⟨w, hw, e⟩ := Option.bind_eq_some_iff.1 e
    obtain ⟨w', hw', hw⟩ := Option.bind_eq_some_iff.1 hw
    cases hw; cases e
    simp [upd_same]
  exact ⟨s', _, e, h1, h2, fun b hb => (hi.live b hb).1, hal, by rw [← hi.bs, ← hi.al], hr'⟩

/-! ### Concrete cases -/

/-- An allocator of blocks of 20 bytes aligned at 8 (so of 24), 100 bytes of the program, and two blocks, of which the first
    is then freed. -/
theorem allocEx : ∃ s a, (sys 8 anyUse).Reach s a ∧ ∃ P p q, a.pool 0 = some P ∧ P.bs = 24 ∧ P.al = 8 ∧ P.used = [q] ∧
    P.ever = [q, p] ∧ p ≠ q ∧ a.env 50000 = some 100 := by
  have hc := C27 8 (by archd) anyUse
  have r0 := Sys.Reach.init (sys := sys 8 anyUse) (s := ⟨⟨fun _ => 0, fun _ => none⟩, fun _ => none⟩)
    (a := ⟨fun _ => none, fun _ => none⟩) ⟨fun _ => rfl, fun _ => rfl, fun _ => rfl, fun _ => rfl⟩
  obtain ⟨o1, s1, r1, _⟩ := hc.extend r0 (.init 0 20 8) ⟨rfl, by decide, by archd, trivial⟩
  have ea1 : (sys 8 anyUse).next ⟨fun _ => none, fun _ => none⟩ (.init 0 20 8) o1 =
      ⟨upd (fun _ => none) 0 (some ⟨24, 8, [], [], []⟩), fun _ => none⟩ := by cases ‹Arch› <;> rfl
  rw [ea1] at r1
  have hreg1 : ∀ b n, ¬ Ab.Region ⟨upd (fun _ => none) 0 (some ⟨24, 8, [], [], []⟩), fun _ => none⟩ b n := by
    intro b n h
    rcases h with h | ⟨id, P, h, h', _⟩
    · cases h
    · simp only [upd] at h; split at h <;> cases h; cases h'
  obtain ⟨o2, s2, r2, _⟩ := hc.extend r1 (.emalloc 50000 100 fun _ => 7) ⟨trivial, by decide, by archd, fun n h => hreg1 _ _ h,
    fun b n h => (hreg1 _ _ h).elim⟩
  have ea2 : (sys 8 anyUse).next ⟨upd (fun _ => none) 0 (some ⟨24, 8, [], [], []⟩), fun _ => none⟩ (.emalloc 50000 100 fun _ => 7) o2 =
      ⟨upd (fun _ => none) 0 (some ⟨24, 8, [], [], []⟩), upd (fun _ => none) 50000 (some 100)⟩ := rfl
  rw [ea2] at r2
  have hreg : ∀ b n, Ab.Region ⟨upd (fun _ => none) 0 (some ⟨24, 8, [], [], []⟩), upd (fun _ => none) 50000 (some 100)⟩ b n →
      b = 50000 ∧ n = 100 := by
    intro b n h
    rcases h with h | ⟨id, P, h, h', _⟩
    · simp only [upd] at h; split at h <;> cases h; exact ⟨by assumption, rfl⟩
    · simp only [upd] at h; split at h <;> cases h; cases h'
  obtain ⟨o3, s3, r3, a3⟩ := hc.extend r2 (.alloc 0 4096 fun _ => 1) ⟨trivial, _, rfl, by decide, by archd, fun n h => by
    have := hreg _ _ h; omega, fun b n h => by
    obtain ⟨rfl, rfl⟩ := hreg _ _ h; archd⟩
  obtain ⟨P3, p, n3, hP3, rfl, _⟩ := a3
  have ea3 : (sys 8 anyUse).next ⟨upd (fun _ => none) 0 (some ⟨24, 8, [], [], []⟩), upd (fun _ => none) 50000 (some 100)⟩
      (.alloc 0 4096 fun _ => 1) (.block p n3) =
      ⟨upd (upd (fun _ => none) 0 (some ⟨24, 8, [], [], []⟩)) 0 (some ⟨24, 8, [p], [p], if n3 then [4096] else []⟩),
        upd (fun _ => none) 50000 (some 100)⟩ := rfl
  rw [ea3] at r3
  have hreg3 : ∀ b n, Ab.Region ⟨upd (upd (fun _ => none) 0 (some ⟨24, 8, [], [], []⟩)) 0 (some ⟨24, 8, [p], [p], if n3 then [4096] else []⟩),
        upd (fun _ => none) 50000 (some 100)⟩ b n → (b = 50000 ∧ n = 100) ∨ (b = 4096 ∧ n = 4032) := by
    intro b n h
    rcases h with h | ⟨id, P, h, h', h''⟩
    · simp only [upd] at h; split at h <;> cases h; exact Or.inl ⟨by assumption, rfl⟩
    · simp only [upd] at h
      split at h <;> cases h
      right
      refine ⟨?_, h''.trans (by simp only [segSize]; arch)⟩
      cases n3
      · cases h'
      · simpa using h'
  obtain ⟨o4, s4, r4, a4⟩ := hc.extend r3 (.alloc 0 8192 fun _ => 1) ⟨trivial, _, rfl, by decide,
    (show 8192 + segSize 24 8 + 8 < 2 ^ sizeBit by archd), fun n h => by have := hreg3 _ _ h; omega, fun b n h => by
    show 8192 + segSize 24 8 + 8 ≤ b ∨ b + n + 8 ≤ 8192
    rcases hreg3 _ _ h with ⟨rfl, rfl⟩ | ⟨rfl, rfl⟩ <;> archd⟩
  obtain ⟨P4, q, n4, hP4, rfl, _, _, hap, _⟩ := a4
  have hb4 : P4 = ⟨24, 8, [p], [p], if n3 then [4096] else []⟩ := by
    have : some ⟨24, 8, [p], [p], if n3 then [4096] else []⟩ = some P4 := hP4
    cases this; rfl
  have hpq : p ≠ q := by
    intro e
    subst e
    refine hap p (Nat.le_refl _) (by rw [hb4]; simp) (Or.inr ⟨0, P4, p, hP4, by rw [hb4]; simp, Nat.le_refl _, by rw [hb4]; simp⟩)
  obtain ⟨o5, s5, r5, a5⟩ := hc.extend r4 (.free 0 p) ⟨_, rfl, by simp⟩
  refine ⟨s5, _, r5, _, p, q, rfl, rfl, rfl, ?_, rfl, hpq, rfl⟩
  show [q, p].erase p = [q]
  simp [hpq.symm]

/-- Concrete values: the memory usage in that state is 24 bytes. -/
example : ∃ s a t, (sys 8 anyUse).Reach s a ∧ s.al 0 = some t ∧ allocatorMemoryUsage t = 24 := by
  obtain ⟨s, a, hr, P, p, q, hP, hb, _, hu, _⟩ := allocEx
  have hroom : RoomFor 8 anyUse := fun _ _ _ h _ _ _ _ => room_slack (by archd) h
  obtain ⟨t, F, ht, _⟩ := (reach_alloc hroom s a hr).1.get hP
  exact ⟨s, a, t, hr, ht, by rw [C29_usage_partial 8 anyUse hroom s a hr 0 P t hP ht, hu, hb]; rfl⟩

/-- Which sizes fit in 4032 bytes when malloc() returns addresses multiple of 16 (here 64) with 64 bit: not 8, 16, 24, 32, 48 and
    1008, but 40, 64 aligned at 64, 128, 256, 1000, 4016 and 10000 do. -/
example : (¬ @Room .w64 0 8 8 64) ∧ (¬ @Room .w64 0 16 8 64) ∧ (¬ @Room .w64 0 24 8 64) ∧ (¬ @Room .w64 0 32 8 64) ∧ (¬ @Room .w64 0 48 8 64) ∧ @Room .w64 0 40 8 64 ∧
    @Room .w64 0 64 64 64 ∧ @Room .w64 0 128 8 64 ∧ @Room .w64 0 256 8 64 ∧ @Room .w64 0 1000 8 64 ∧ (¬ @Room .w64 0 1008 8 64) ∧ @Room .w64 0 4016 8 64 ∧
    @Room .w64 0 10000 8 64 := by
  unfold Room
  decide

/-- The use of the trie is possible. -/
example : legal 0 trieUse ⟨fun _ => none, fun _ => none⟩ (.init 0 64 64) := by
  refine ⟨rfl, by decide, by archd, by archd, by archd⟩

end Tommy
