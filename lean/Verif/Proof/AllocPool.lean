import Verif.Proof.AllocMem
import Verif.Proof.Heap
/-! One allocator: the invariant and the functions. -/
set_option linter.unusedSimpArgs false
namespace Tommy
namespace AllocSpec
variable [Arch]

def Off (bs p q : Nat) : Prop := p + bs ≤ q ∨ q + bs ≤ p

omit [Arch] in
theorem off_symm {bs p q : Nat} (h : Off bs p q) : Off bs q p := h.symm

/-- `F` is the list of the free blocks. -/
structure PoolInv (slack : Nat) (m : AMem) (t : Alloc) (P : Pool) (F : List Nat) : Prop where
  bs : t.blockSize = P.bs
  al : t.alignSize = P.al
  al8 : ptrSize ≤ P.al
  bs8 : ptrSize ≤ P.bs
  mul : P.bs % P.al = 0
  fit : ptrSize + P.al + P.bs < 2 ^ sizeBit
  count : t.count = P.used.length % 2 ^ sizeBit
  free : Chain m.byte t.freeBlock F
  seg : Chain m.byte t.usedSegment P.segs
  nodup : P.segs.Nodup
  live : ∀ b ∈ P.segs, m.live b = some (segSize P.bs P.al + slack) ∧ 0 < b ∧ b + segSize P.bs P.al + slack < 2 ^ sizeBit
  apart : (P.used ++ F).Pairwise (Off P.bs)
  blk : ∀ p ∈ P.used ++ F, p % P.al = 0 ∧ ∃ b ∈ P.segs, b + ptrSize ≤ p ∧ p + P.bs ≤ b + segSize P.bs P.al + slack
  ever : ∀ q ∈ P.ever, q ∈ P.used ++ F
  cap : P.segs.length * minBlocks P.bs P.al ≤ (P.used ++ F).length

variable {slack : Nat} {m m' : AMem} {t : Alloc} {P : Pool} {F : List Nat}

theorem segSize_ge (bs al : Nat) : 4032 ≤ segSize bs al ∧ ptrSize + al + bs ≤ segSize bs al := by
  unfold segSize; omega

/-- Only the headers of the segments and the free blocks matter. -/
theorem PoolInv.congr (h : PoolInv slack m t P F) (h1 : ∀ b ∈ P.segs, rdP m'.byte b = rdP m.byte b)
    (h2 : ∀ b ∈ F, rdP m'.byte b = rdP m.byte b) (h3 : ∀ b ∈ P.segs, m'.live b = m.live b) : PoolInv slack m' t P F :=
  { h with free := h.free.congr h2, seg := h.seg.congr h1, live := fun b hb => by rw [h3 b hb]; exact h.live b hb }

theorem PoolInv.acc (h : PoolInv slack m t P F) {p : Nat} (hp : p ∈ P.used ++ F) : m.acc p ptrSize = true := by
  obtain ⟨_, b, hb, h1, h2⟩ := h.blk p hp
  have := h.bs8
  exact acc_of (h.live b hb).1 (by omega) (by omega)

/-- The pop of a free block. -/
theorem PoolInv.pop {p : Nat} (h : PoolInv slack m t P (p :: F)) :
    t.freeBlock = p ∧ readP p m = some (rdP m.byte p, m) ∧
    PoolInv slack m { t with freeBlock := rdP m.byte p, count := addT t.count 1 }
      { P with used := p :: P.used, ever := p :: P.ever } F := by
  have hperm : (P.used ++ p :: F).Perm ((p :: P.used) ++ F) := List.perm_middle
  refine ⟨h.free.1, readP_run (h.acc (by simp)),
    { h with count := ?_, free := h.free.2.2, apart := ?_, blk := ?_, ever := ?_, cap := ?_ }⟩
  · show (t.count + 1) % 2 ^ sizeBit = (P.used.length + 1) % 2 ^ sizeBit
    rw [h.count]; arch
  · exact (hperm.pairwise_iff (fun h => off_symm h)).1 h.apart
  · intro q hq; exact h.blk q (hperm.mem_iff.2 hq)
  · intro q hq
    rcases List.mem_cons.1 hq with rfl | hq
    · simp
    · exact hperm.mem_iff.1 (h.ever q hq)
  · show P.segs.length * _ ≤ ((p :: P.used) ++ F).length
    rw [← hperm.length_eq]; exact h.cap

theorem PoolInv.head_lt (h : PoolInv slack m t P F) : t.freeBlock < 2 ^ sizeBit ∧ t.usedSegment < 2 ^ sizeBit := by
  constructor
  · cases F with
    | nil => have := h.free; simp only [Chain] at this; arch
    | cons x xs =>
      obtain ⟨_, b, hb, h1, h2⟩ := h.blk x (by simp)
      have := (h.live b hb).2
      have := h.free.1
      omega
  · have hs := h.seg
    cases hc : P.segs with
    | nil => rw [hc] at hs; simp only [Chain] at hs; arch
    | cons x xs =>
      rw [hc] at hs
      have := (h.live x (by rw [hc]; simp)).2
      have := hs.1
      omega

/-- free() of a block in use. -/
theorem PoolInv.push {p : Nat} (h : PoolInv slack m t P F) (hp : p ∈ P.used)
    (hsep : ∀ b ∈ P.segs, ∀ b' ∈ P.segs, b ≠ b' → b + segSize P.bs P.al + slack ≤ b' ∨ b' + segSize P.bs P.al + slack ≤ b) :
    writeP p t.freeBlock m = some ((), { m with byte := wrP m.byte p t.freeBlock }) ∧
    PoolInv slack { m with byte := wrP m.byte p t.freeBlock } { t with freeBlock := p, count := subT t.count 1 }
      { P with used := P.used.erase p } (p :: F) := by
  have hpm : p ∈ P.used ++ F := by simp [hp]
  have hperm : (P.used ++ F).Perm (P.used.erase p ++ p :: F) :=
    ((List.perm_cons_erase hp).append_right F).trans List.perm_middle.symm
  have h8 := h.bs8
  have hge := segSize_ge P.bs P.al
  obtain ⟨hpal, bp, hbp, hp1, hp2⟩ := h.blk p hpm
  have hp0 : p ≠ 0 := by arch
  have hapart := (hperm.pairwise_iff (fun h => off_symm h)).1 h.apart
  have hF : ∀ q ∈ F, Off P.bs p q := by
    have := (List.pairwise_append.1 hapart).2.1
    exact (List.pairwise_cons.1 this).1
  have hlen : P.used.length = (P.used.erase p).length + 1 := by
    rw [List.length_erase_of_mem hp]
    have : 0 < P.used.length := List.length_pos_of_mem hp
    omega
  refine ⟨writeP_run (h.acc hpm), { h with count := ?_, free := ?_, seg := ?_, apart := hapart, blk := ?_, ever := ?_, cap := ?_ }⟩
  · show (t.count + 2 ^ sizeBit - 1) % 2 ^ sizeBit = (P.used.erase p).length % 2 ^ sizeBit
    rw [h.count, hlen]; arch
  · refine ⟨rfl, hp0, ?_⟩
    simp only
    rw [rdP_wrP h.head_lt.1]
    exact h.free.congr fun q hq => rdP_wrP_out (by rcases hF q hq with h | h <;> omega)
  · refine h.seg.congr fun b hb => rdP_wrP_out ?_
    by_cases e : b = bp
    · subst e; omega
    · have := hsep b hb bp hbp e; omega
  · intro q hq; exact h.blk q (hperm.mem_iff.2 hq)
  · intro q hq; exact hperm.mem_iff.1 (h.ever q hq)
  · show P.segs.length * _ ≤ (P.used.erase p ++ p :: F).length
    rw [← hperm.length_eq]; exact h.cap

theorem pad_lt {al base : Nat} (h : ptrSize ≤ al) : pad al base < al := by
  unfold pad
  have := Nat.mod_lt (base + ptrSize) (show al > 0 by arch)
  split <;> omega

theorem pad_mod {al base : Nat} (h : ptrSize ≤ al) : (base + ptrSize + pad al base) % al = 0 := by
  unfold pad
  have hlt := Nat.mod_lt (base + ptrSize) (show al > 0 by arch)
  split
  · assumption
  · have e : base + ptrSize + (al - (base + ptrSize) % al) = al * ((base + ptrSize) / al) + al := by
      have := Nat.div_add_mod (base + ptrSize) al
      omega
    rw [e, Nat.add_mod_right, Nat.mul_mod_right]

/-- The blocks of the segment `base`. -/
def segBlocks (bs al base : Nat) : List Nat := blocks (base + ptrSize + pad al base) bs ((segSize bs al - pad al base) / bs)

/-- A new segment. -/
theorem PoolInv.segment (h : PoolInv slack m t P []) {base : Nat} (content : Nat → Nat) (hb0 : 0 < base)
    (hlt : base + segSize P.bs P.al + slack < 2 ^ sizeBit)
    (hfr : ∀ b ∈ P.segs, base + segSize P.bs P.al + slack ≤ b ∨ b + segSize P.bs P.al + slack ≤ base)
    (hroom : Room slack P.bs P.al base) :
    ∃ m' t' F', allocatorSegment slack base content t m = some (t', m') ∧ (F' ≠ [] ∧ F' = segBlocks P.bs P.al base) ∧
      PoolInv slack m' t' { P with segs := base :: P.segs } F' ∧
      m'.live = upd m.live base (some (segSize P.bs P.al + slack)) ∧
      ∀ x, (x < base ∨ base + segSize P.bs P.al + slack ≤ x) → m'.byte x = m.byte x := by
  have hge := segSize_ge P.bs P.al
  have hbs8 := h.bs8
  have hal8 := h.al8
  have hfit := h.fit
  have hpad := pad_lt (base := base) h.al8
  have hpm := pad_mod (base := base) h.al8
  generalize hS : segSize P.bs P.al = S at *
  generalize hpd : pad P.al base = pd at *
  unfold Room at hroom
  rw [hS, hpd] at hroom
  have hn1 : 0 < (S - pd) / P.bs := Nat.div_pos (by omega) (by arch)
  obtain ⟨n, hn⟩ : ∃ n, (S - pd) / P.bs = n + 1 := ⟨(S - pd) / P.bs - 1, by omega⟩
  have hdm := Nat.div_add_mod (S - pd) P.bs
  have hml := Nat.mod_lt (S - pd) (show P.bs > 0 by arch)
  rw [hn] at hdm hroom
  rw [Nat.mul_comm] at hdm
  generalize hm1 : ({ live := upd m.live base (some (S + slack))
                      byte := fun x => if base ≤ x ∧ x < base + (S + slack) then content x else m.byte x } : AMem) = m1
  have hm1l : m1.live = upd m.live base (some (S + slack)) := by rw [← hm1]
  have hm1b : ∀ x, (x < base ∨ base + S + slack ≤ x) → m1.byte x = m.byte x := fun x hx => by
    rw [← hm1]; simp only; rw [if_neg (by omega)]
  have hl1 : m1.live base = some (S + slack) := by rw [hm1l, upd_same]
  have ha : m1.acc base ptrSize = true := acc_of hl1 (by omega) (by omega)
  have hacc : ∀ i, i ≤ n → ({ m1 with byte := wrP m1.byte base t.usedSegment } : AMem).acc (base + ptrSize + pd + i * P.bs) ptrSize = true := by
    intro i hi
    have := mul_le_mul_lt (bs := P.bs) (show i < n + 1 by omega)
    exact acc_of hl1 (by omega) (by omega)
  obtain ⟨m', e, hl, hx, hC⟩ := pushLoop_run h.bs8 n { t with usedSegment := base } (base + ptrSize + pd) (S - pd)
    { m1 with byte := wrP m1.byte base t.usedSegment } [] h.bs (by omega) (by omega) (by omega) (by omega) (by omega) hacc
    (by have := h.free; simp only [Chain] at this ⊢; exact this) (fun q hq => by simp at hq) h.head_lt.1
  rw [List.append_nil] at hC
  have hbyte : ∀ x, (x < base ∨ base + S + slack ≤ x) → m'.byte x = m.byte x := fun x hx' => by
    rw [hx x (by omega)]; simp only
    rw [wrP_out (by omega)]; exact hm1b x hx'
  have hlive : m'.live = upd m.live base (some (S + slack)) := by rw [hl]; exact hm1l
  have hnot : ∀ b ∈ P.segs, b ≠ base := fun b hb e => by have := hfr b hb; omega
  have hmem : ∀ p ∈ blocks (base + ptrSize + pd) P.bs (n + 1), base + ptrSize ≤ p ∧ p + P.bs ≤ base + S + slack := fun p hp => by
    obtain ⟨i, hi, rfl⟩ := mem_blocks.1 hp
    have := mul_le_mul_lt (bs := P.bs) hi
    omega
  refine ⟨m', { t with usedSegment := base, freeBlock := base + ptrSize + pd + n * P.bs }, blocks (base + ptrSize + pd) P.bs (n + 1), ?_,
    ⟨by simp [blocks], by unfold segBlocks; rw [hS, hpd, hn]⟩, ?_, hlive, hbyte⟩
  · have h1 : addT (addT ptrSize P.al) P.bs = ptrSize + P.al + P.bs := by
      unfold addT; arch
    have h2 : (if allocatorBlockSize < ptrSize + P.al + P.bs then ptrSize + P.al + P.bs else allocatorBlockSize) = S := by
      rw [← hS]; unfold segSize allocatorBlockSize; split <;> omega
    have h3 : addT base ptrSize = base + ptrSize := by unfold addT; arch
    have h4 : amalloc slack base content S m = some (base, m1) := by rw [← hm1]; rfl
    unfold allocatorSegment
    simp only [h.al, h.bs] at e ⊢
    simp only [h1, h2, h3, StateT.bind, bind, h4, Option.bind_some, writeP_run ha]
    by_cases hmis : (base + ptrSize) % P.al = 0
    · have hp0 : pd = 0 := by rw [← hpd]; unfold pad; rw [if_pos hmis]
      rw [if_neg (by omega)]
      rw [hp0, Nat.add_zero, Nat.sub_zero] at e
      rw [hp0, Nat.add_zero]
      exact e
    · have hp0 : subT P.al ((base + ptrSize) % P.al) = pd := by
        rw [← hpd]; unfold pad subT; rw [if_neg hmis]
        have := Nat.mod_lt (base + ptrSize) (show P.al > 0 by omega)
        arch
      have h5 : addT (base + ptrSize) pd = base + ptrSize + pd := by unfold addT; arch
      have h6 : subT S pd = S - pd := by unfold subT; arch
      rw [if_pos hmis, hp0, h5, h6]
      exact e
  · refine { h with seg := ?_, nodup := ?_, live := ?_, apart := ?_, blk := ?_, ever := ?_, cap := ?_, free := hC }
    · refine ⟨rfl, by omega, ?_⟩
      have e1 : rdP m'.byte base = t.usedSegment := by
        rw [rdP_congr (g := wrP m1.byte base t.usedSegment) fun x h1 h2 => hx x (by omega)]
        exact rdP_wrP h.head_lt.2
      rw [e1]
      refine h.seg.congr fun b hb => rdP_congr fun x h1 h2 => hbyte x ?_
      have := hfr b hb
      omega
    · exact List.nodup_cons.2 ⟨fun hb => hnot base hb rfl, h.nodup⟩
    · intro b hb
      simp only [hS]
      rcases List.mem_cons.1 hb with rfl | hb
      · rw [hlive, upd_same]; exact ⟨rfl, hb0, hlt⟩
      · rw [hlive, upd_ne (hnot b hb)]
        have := h.live b hb
        rwa [hS] at this
    · rw [List.pairwise_append]
      have hold := h.apart
      rw [List.append_nil] at hold
      refine ⟨hold, blocks_apart _ _ _, fun p hp q hq => ?_⟩
      obtain ⟨_, b, hb, h1, h2⟩ := h.blk p (by simp [hp])
      rw [hS] at h2
      have h3 := hmem q hq
      have := hfr b hb
      unfold Off
      simp only
      omega
    · intro p hp
      simp only [hS]
      rcases List.mem_append.1 hp with hp | hp
      · obtain ⟨h0, b, hb, h1, h2⟩ := h.blk p (by simp [hp])
        rw [hS] at h2
        exact ⟨h0, b, by simp [hb], h1, h2⟩
      · obtain ⟨i, hi, rfl⟩ := mem_blocks.1 hp
        refine ⟨?_, base, by simp, (hmem _ hp).1, (hmem _ hp).2⟩
        rw [Nat.add_mod, hpm, Nat.zero_add, Nat.mod_mod, Nat.mul_mod, h.mul, Nat.mul_zero, Nat.zero_mod]
    · intro q hq
      have := h.ever q hq
      rw [List.append_nil] at this
      simp [this]
    · have h1 := h.cap
      simp only [List.length_append, List.length_cons, List.length_nil, blocks_length] at h1 ⊢
      have h2 : minBlocks P.bs P.al ≤ n + 1 := by
        rw [← hn]; unfold minBlocks; rw [hS]
        exact Nat.div_le_div_right (by omega)
      rw [Nat.add_mul]; omega

/-- The loop that frees the segments. -/
theorem resetLoop_run : ∀ (l : List Nat) (p : Nat) (m : AMem), Chain m.byte p l → l.Nodup →
    (∀ b ∈ l, ∃ n, m.live b = some n ∧ ptrSize ≤ n) →
    ∃ m', allocatorResetLoop p m = some ((), m') ∧ m'.byte = m.byte ∧
      ∀ b, m'.live b = if b ∈ l then none else m.live b := by
  intro l
  induction l with
  | nil =>
    intro p m h _ _
    refine ⟨m, ?_, rfl, by simp⟩
    simp only [Chain] at h
    rw [allocatorResetLoop, if_neg (by omega)]; rfl
  | cons x xs ih =>
    intro p m h hn hl
    obtain ⟨rfl, h0, h⟩ := h
    obtain ⟨n, h1, h2⟩ := hl p (by simp)
    have hn := List.nodup_cons.1 hn
    obtain ⟨m', e, hb, hlv⟩ := ih (rdP m.byte p) { m with live := upd m.live p none } h hn.2 (fun b hb => by
      have hne : b ≠ p := fun e => hn.1 (e ▸ hb)
      simp only; rw [upd_ne hne]; exact hl b (by simp [hb]))
    refine ⟨m', ?_, hb, fun b => ?_⟩
    · rw [allocatorResetLoop, if_pos h0]
      have hacc : m.acc p ptrSize = true := acc_of h1 (Nat.le_refl _) (by omega)
      have hf : afree p m = some ((), { m with live := upd m.live p none }) := by
        unfold afree; rw [if_pos (by rw [h1]; rfl)]
      simp only [StateT.bind, bind, readP_run hacc, Option.bind_some, hf]
      exact e
    · rw [hlv]
      by_cases hbp : b = p
      · subst hbp; simp
      · simp [hbp, upd_ne hbp]

theorem init_real {bs al : Nat} (h0 : 0 < bs) (h : ptrSize + realAlign al + realSize bs al < 2 ^ sizeBit) :
    allocatorInit bs al = ⟨0, 0, realSize bs al, realAlign al, 0⟩ ∧ ptrSize ≤ realAlign al ∧ ptrSize ≤ realSize bs al ∧
      realSize bs al % realAlign al = 0 ∧ bs ≤ realSize bs al := by
  have ha : (if al < ptrSize then ptrSize else al) = realAlign al := by unfold realAlign; split <;> omega
  have h8 : ptrSize ≤ realAlign al := by unfold realAlign; omega
  have hrs : realSize bs al = if bs % realAlign al ≠ 0 then bs + (realAlign al - bs % realAlign al) else bs := by
    unfold realSize
    generalize realAlign al = A at *
    have hdm := Nat.div_add_mod bs A
    have hlt := Nat.mod_lt bs (show A > 0 by arch)
    generalize hq : bs / A = q at *
    generalize hr : bs % A = r at *
    by_cases hr0 : r = 0
    · rw [if_neg (by omega)]
      have e : bs + A - 1 = (A - 1) + A * q := by omega
      rw [e, Nat.add_mul_div_left _ _ (by omega), Nat.div_eq_of_lt (by omega), Nat.zero_add, Nat.mul_comm]
      omega
    · rw [if_pos hr0]
      have e : bs + A - 1 = (r - 1) + A * (q + 1) := by rw [Nat.mul_add]; omega
      rw [e, Nat.add_mul_div_left _ _ (by omega), Nat.div_eq_of_lt (by omega), Nat.zero_add, Nat.mul_comm, Nat.mul_add]
      omega
  have hmod : realSize bs al % realAlign al = 0 := by unfold realSize; exact Nat.mul_mod_left _ _
  have hle : bs ≤ realSize bs al := by rw [hrs]; split <;> omega
  refine ⟨?_, h8, ?_, hmod, hle⟩
  · unfold allocatorInit
    simp only [ha]
    congr 1
    rw [hrs] at h ⊢
    by_cases hr0 : bs % realAlign al ≠ 0
    · rw [if_pos hr0] at h ⊢
      rw [if_pos hr0]
      have hlt := Nat.mod_lt bs (show realAlign al > 0 by arch)
      unfold addT subT; arch
    · rw [if_neg hr0, if_neg hr0]
  · have : realSize bs al ≠ 0 := by omega
    have h2 := Nat.div_add_mod (realSize bs al) (realAlign al)
    rw [hmod] at h2
    have : realSize bs al / realAlign al ≠ 0 := fun e => by rw [e] at h2; omega
    have : realAlign al * 1 ≤ realAlign al * (realSize bs al / realAlign al) := Nat.mul_le_mul_left _ (Nat.one_le_iff_ne_zero.2 this)
    omega

end AllocSpec
end Tommy
