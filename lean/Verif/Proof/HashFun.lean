import Verif.Proof.Hash
/-! Hash functions: complete keys and strings. -/
set_option linter.unusedSimpArgs false
namespace Tommy
open Lookup3 (Byte)

theorem hashU32_eq {mem : Bytes} {l : List Byte} (h : ∀ i (h : i < l.length), mem i = some l[i]) (init : BitVec 32) :
    hashU32 init mem l.length = some (Lookup3.hashlittle init l) := by
  have hm : InMem mem 0 l := fun i hi => by rw [Nat.zero_add]; exact h i hi
  unfold hashU32 Lookup3.hashlittle
  by_cases hl : l = []
  · subst hl
    simp [hashLoop]
  · obtain ⟨s', l', off', e, hm', hne, hle, hr⟩ := hashLoop_eq mem _ l
      ⟨0xdeadbeef#32 + BitVec.ofNat 32 l.length + init, 0xdeadbeef#32 + BitVec.ofNat 32 l.length + init,
       0xdeadbeef#32 + BitVec.ofNat 32 l.length + init⟩ 0 rfl hm hl
    obtain ⟨s2, e2, hs⟩ := hashSwitch_eq hm' hne hle s'
    have h0 : l'.length ≠ 0 := by rw [Ne, List.length_eq_zero_iff]; exact hne
    simp only [e, Option.bind_eq_bind, Option.bind_some, if_neg h0, e2, if_neg hl, Option.pure_def]
    simp only [Abc.st] at hr
    rw [hr]
    have := final_eq s2
    rw [hs] at this
    simp only [Abc.st] at this
    rw [← this]

theorem res64_eq (s : Abc) : res64 s = s.b ++ s.c := by
  apply BitVec.eq_of_toNat_eq
  have hb := s.b.isLt
  have hc := s.c.isLt
  rw [res64, BitVec.toNat_append, ← Nat.shiftLeft_add_eq_or_of_lt hc, Nat.shiftLeft_eq]
  simp only [BitVec.toNat_add, BitVec.toNat_setWidth, BitVec.toNat_shiftLeft, Nat.shiftLeft_eq]
  omega

theorem init64_lo (x : BitVec 32) (init : BitVec 64) :
    (x.setWidth 64 + (init &&& 0xffffffff#64)).setWidth 32 = x + init.extractLsb' 0 32 := by
  apply BitVec.eq_of_toNat_eq
  have hi := init.isLt
  have : init.toNat &&& 4294967295 = init.toNat % 2 ^ 32 := by
    rw [← Nat.and_two_pow_sub_one_eq_mod]
  simp [this]

theorem init64_hi (x : BitVec 32) (init : BitVec 64) :
    (x.setWidth 64 + (init >>> 32)).setWidth 32 = x + init.extractLsb' 32 32 := by
  apply BitVec.eq_of_toNat_eq
  simp [Nat.shiftRight_eq_div_pow]

theorem hashU64_eq {mem : Bytes} {l : List Byte} (h : ∀ i (h : i < l.length), mem i = some l[i]) (init : BitVec 64) :
    hashU64 init mem l.length = some (Lookup3.hashlittle2 init l) := by
  have hm : InMem mem 0 l := fun i hi => by rw [Nat.zero_add]; exact h i hi
  unfold hashU64 Lookup3.hashlittle2
  simp only [init64_lo, init64_hi]
  by_cases hl : l = []
  · subst hl
    simp [hashLoop, res64_eq]
  · generalize 0xdeadbeef#32 + BitVec.ofNat 32 l.length + init.extractLsb' 0 32 = v
    obtain ⟨s', l', off', e, hm', hne, hle, hr⟩ := hashLoop_eq mem _ l
      ⟨v, v, v + init.extractLsb' 32 32⟩ 0 rfl hm hl
    obtain ⟨s2, e2, hs⟩ := hashSwitch_eq hm' hne hle s'
    have h0 : l'.length ≠ 0 := by rw [Ne, List.length_eq_zero_iff]; exact hne
    simp only [e, Option.bind_eq_bind, Option.bind_some, if_neg h0, e2, if_neg hl, Option.pure_def]
    simp only [Abc.st] at hr
    rw [hr, res64_eq]
    have := final_eq s2
    rw [hs] at this
    simp only [Abc.st] at this
    rw [← this]

/-! ## Strings -/

theorem nat_and_byte (n k : Nat) : n &&& (255 <<< k) = (n / 2 ^ k % 256) * 2 ^ k := by
  apply Nat.eq_of_testBit_eq
  intro i
  rw [Nat.testBit_and, Nat.testBit_shiftLeft, Nat.testBit_mul_two_pow, show 255 = 2 ^ 8 - 1 from rfl,
    Nat.testBit_two_pow_sub_one, show 256 = 2 ^ 8 from rfl, Nat.testBit_mod_two_pow, Nat.testBit_div_two_pow]
  by_cases h : k ≤ i
  · rw [Nat.sub_add_cancel h]
    simp [h, Bool.and_comm]
  · simp [h]

theorem and_byte (v : BitVec 32) (k : Nat) (m : BitVec 32) (hm : m.toNat = 255 <<< k) :
    v &&& m = BitVec.ofNat 32 ((v.toNat / 2 ^ k % 256) * 2 ^ k) := by
  apply BitVec.eq_of_toNat_eq
  rw [BitVec.toNat_and, hm, nat_and_byte, BitVec.toNat_ofNat]
  refine (Nat.mod_eq_of_lt ?_).symm
  rw [← nat_and_byte, ← hm]
  exact Nat.lt_of_le_of_lt Nat.and_le_right m.isLt

theorem le_lt4 (b0 b1 b2 b3 : Byte) : Lookup3.le [b0, b1, b2, b3] < 2 ^ 32 := by
  have := b0.isLt; have := b1.isLt; have := b2.isLt; have := b3.isLt
  simp only [Lookup3.le]; omega

theorem le_digits (b0 b1 b2 b3 : Byte) : Lookup3.le [b0, b1, b2, b3] / 2 ^ 0 % 256 = b0.toNat ∧
    Lookup3.le [b0, b1, b2, b3] / 2 ^ 8 % 256 = b1.toNat ∧ Lookup3.le [b0, b1, b2, b3] / 2 ^ 16 % 256 = b2.toNat ∧
    Lookup3.le [b0, b1, b2, b3] / 2 ^ 24 % 256 = b3.toNat := by
  have := b0.isLt; have := b1.isLt; have := b2.isLt; have := b3.isLt
  simp only [Lookup3.le]; omega

theorem hasZero_le (b0 b1 b2 b3 : Byte) :
    hasZeroU32 (BitVec.ofNat 32 (Lookup3.le [b0, b1, b2, b3])).toNat = true ↔ b0 = 0 ∨ b1 = 0 ∨ b2 = 0 ∨ b3 = 0 := by
  have hz : ∀ b : Byte, b = 0 ↔ b.toNat = 0 := fun b => by
    constructor
    · rintro rfl; rfl
    · intro h; exact BitVec.eq_of_toNat_eq h
  rw [BitVec.toNat_ofNat, Nat.mod_eq_of_lt (le_lt4 ..), hasZeroU32_spec (le_lt4 ..)]
  obtain ⟨d0, d1, d2, d3⟩ := le_digits b0 b1 b2 b3
  rw [hz, hz, hz, hz, ← d0, ← d1, ← d2, ← d3]
  constructor
  · rintro ⟨i, hi, h⟩
    match i, hi with
    | 0, _ => exact .inl h
    | 1, _ => exact .inr (.inl h)
    | 2, _ => exact .inr (.inr (.inl h))
    | 3, _ => exact .inr (.inr (.inr h))
  · rintro (h | h | h | h)
    · exact ⟨0, by omega, h⟩
    · exact ⟨1, by omega, h⟩
    · exact ⟨2, by omega, h⟩
    · exact ⟨3, by omega, h⟩

theorem strTail_le (b0 b1 b2 b3 : Byte) (x : BitVec 32) :
    strTail (BitVec.ofNat 32 (Lookup3.le [b0, b1, b2, b3])) x =
      if b0 = 0 then x else if b1 = 0 then x + BitVec.ofNat 32 (Lookup3.le [b0])
        else if b2 = 0 then x + BitVec.ofNat 32 (Lookup3.le [b0, b1])
        else x + BitVec.ofNat 32 (Lookup3.le [b0, b1, b2]) := by
  have hz : ∀ b : Byte, ∀ k, k < 24 → (BitVec.ofNat 32 (b.toNat * 2 ^ k) = 0 ↔ b = 0) := fun b k hk => by
    constructor
    · intro h
      have := congrArg BitVec.toNat h
      have h2 : 2 ^ k ≤ 2 ^ 24 := Nat.pow_le_pow_right (by omega) (by omega)
      have h3 : b.toNat * 2 ^ k < 2 ^ 32 := by
        calc b.toNat * 2 ^ k ≤ b.toNat * 2 ^ 24 := Nat.mul_le_mul_left _ h2
          _ < 2 ^ 32 := by have := b.isLt; omega
      rw [BitVec.toNat_ofNat, Nat.mod_eq_of_lt h3] at this
      rcases Nat.mul_eq_zero.1 this with h | h
      · exact BitVec.eq_of_toNat_eq h
      · have := Nat.two_pow_pos k; omega
    · rintro rfl; simp
  obtain ⟨d0, d1, d2, d3⟩ := le_digits b0 b1 b2 b3
  have e0 := and_byte (BitVec.ofNat 32 (Lookup3.le [b0, b1, b2, b3])) 0 0xff rfl
  have e1 := and_byte (BitVec.ofNat 32 (Lookup3.le [b0, b1, b2, b3])) 8 0xff00 rfl
  have e2 := and_byte (BitVec.ofNat 32 (Lookup3.le [b0, b1, b2, b3])) 16 0xff0000 rfl
  rw [BitVec.toNat_ofNat, Nat.mod_eq_of_lt (le_lt4 ..)] at e0 e1 e2
  rw [d0] at e0
  rw [d1] at e1
  rw [d2] at e2
  unfold strTail
  simp only [e0, e1, e2, ne_eq, hz _ 0 (by omega), hz _ 8 (by omega), hz _ 16 (by omega), ofNat_le1, ofNat_le2, ofNat_le3]
  by_cases h0 : b0 = 0
  · simp [h0]
  by_cases h1 : b1 = 0
  · simp [h0, h1]
  by_cases h2 : b2 = 0
  · simp only [h0, h1, h2, not_false_eq_true, if_true, not_true_eq_false, if_false]
    rw [BitVec.add_assoc, BitVec.add_comm (BitVec.ofNat 32 (b1.toNat * 2 ^ 8))]
  · simp only [h0, h1, h2, not_false_eq_true, if_true, if_false]
    ac_rfl

/-- A string at `off`, up to its terminator. -/
structure IsStr (mem : Bytes) (off : Nat) (l : List Byte) : Prop where
  inm : InMem mem off l
  term : mem (off + l.length) = some 0
  nz : ∀ b ∈ l, b ≠ 0

/-- The word containing the terminator can be read. -/
def Readable (mem : Bytes) (off : Nat) (l : List Byte) : Prop := ∀ i, i < 4 * (l.length / 4) + 4 → (mem (off + i)).isSome

theorem IsStr.drop {mem : Bytes} {off : Nat} {l : List Byte} (h : IsStr mem off l) {k : Nat} (hk : k ≤ l.length) :
    IsStr mem (off + k) (l.drop k) := by
  refine ⟨h.inm.drop k, ?_, fun b hb => h.nz b (List.mem_of_mem_drop hb)⟩
  rw [List.length_drop, Nat.add_assoc, Nat.add_sub_cancel' hk]; exact h.term

theorem Readable.drop {mem : Bytes} {off : Nat} {l : List Byte} (h : Readable mem off l) {j : Nat} (hk : 4 * j ≤ l.length) :
    Readable mem (off + 4 * j) (l.drop (4 * j)) := by
  intro i hi
  rw [List.length_drop] at hi
  rw [Nat.add_assoc]
  exact h _ (by omega)

theorem strWord_full {mem : Bytes} {off : Nat} {l : List Byte} (h : IsStr mem off l) {i : Nat} (hl : 4 * i + 4 ≤ l.length) :
    leRead mem (off + 4 * i) = some (Lookup3.word l i) ∧ hasZeroU32 (Lookup3.word l i).toNat = false := by
  refine ⟨leRead_word h.inm hl, ?_⟩
  have hd := h.drop (k := 4 * i) (by omega)
  have hl' : 4 ≤ (l.drop (4 * i)).length := by rw [List.length_drop]; omega
  unfold Lookup3.word
  generalize l.drop (4 * i) = d at hd hl'
  match d, hl' with
  | b0 :: b1 :: b2 :: b3 :: d, _ =>
    have hn := hd.nz
    simp only [List.mem_cons] at hn
    have : List.take 4 (b0 :: b1 :: b2 :: b3 :: d) = [b0, b1, b2, b3] := rfl
    rw [this, Bool.eq_false_iff, Ne, hasZero_le]
    rintro (h | h | h | h)
    · exact hn b0 (by simp) h
    · exact hn b1 (by simp) h
    · exact hn b2 (by simp) h
    · exact hn b3 (by simp) h

theorem strWord_last {mem : Bytes} {off : Nat} {l : List Byte} (h : IsStr mem off l) (hr : Readable mem off l)
    {i : Nat} (hl : 4 * i ≤ l.length) (hl2 : l.length < 4 * i + 4) :
    ∃ v, leRead mem (off + 4 * i) = some v ∧ hasZeroU32 v.toNat = true ∧ ∀ x, strTail v x = x + Lookup3.word l i := by
  have hd := h.drop hl
  have hr' := hr.drop hl
  have hl' : (l.drop (4 * i)).length < 4 := by rw [List.length_drop]; omega
  unfold Lookup3.word
  generalize l.drop (4 * i) = d at hd hr' hl'
  generalize off + 4 * i = p at hd hr'
  obtain ⟨b0, h0⟩ := Option.isSome_iff_exists.1 (hr' 0 (by omega))
  obtain ⟨b1, h1⟩ := Option.isSome_iff_exists.1 (hr' 1 (by omega))
  obtain ⟨b2, h2⟩ := Option.isSome_iff_exists.1 (hr' 2 (by omega))
  obtain ⟨b3, h3⟩ := Option.isSome_iff_exists.1 (hr' 3 (by omega))
  refine ⟨_, leRead_eq h0 h1 h2 h3, ?_⟩
  rw [hasZero_le]
  have ht := hd.term
  have hn := hd.nz
  have hi := hd.inm
  match d, hl' with
  | [], _ =>
    have : b0 = 0 := by
      simp only [List.length_nil] at ht; rw [ht] at h0; exact (Option.some.inj h0).symm
    subst this
    exact ⟨.inl rfl, fun x => by rw [strTail_le, if_pos rfl]; simp [Lookup3.le]⟩
  | [c0], _ =>
    have e0 := hi 0 (by simp)
    simp only [List.getElem_cons_zero] at e0
    rw [h0] at e0; cases e0
    simp only [List.length_cons, List.length_nil, Nat.zero_add] at ht
    rw [h1] at ht; cases ht
    exact ⟨.inr (.inl rfl), fun x => by rw [strTail_le, if_neg (hn _ (by simp)), if_pos rfl]; rfl⟩
  | [c0, c1], _ =>
    have e0 := hi 0 (by simp)
    have e1 := hi 1 (by simp)
    simp only [List.getElem_cons_zero, List.getElem_cons_succ] at e0 e1
    rw [h0] at e0; cases e0
    rw [h1] at e1; cases e1
    simp only [List.length_cons, List.length_nil, Nat.zero_add] at ht
    rw [h2] at ht; cases ht
    exact ⟨.inr (.inr (.inl rfl)), fun x => by
      rw [strTail_le, if_neg (hn _ (by simp)), if_neg (hn _ (by simp)), if_pos rfl]; rfl⟩
  | [c0, c1, c2], _ =>
    have e0 := hi 0 (by simp)
    have e1 := hi 1 (by simp)
    have e2 := hi 2 (by simp)
    simp only [List.getElem_cons_zero, List.getElem_cons_succ] at e0 e1 e2
    rw [h0] at e0; cases e0
    rw [h1] at e1; cases e1
    rw [h2] at e2; cases e2
    simp only [List.length_cons, List.length_nil, Nat.zero_add] at ht
    rw [h3] at ht; cases ht
    exact ⟨.inr (.inr (.inr rfl)), fun x => by
      rw [strTail_le, if_neg (hn _ (by simp)), if_neg (hn _ (by simp)), if_neg (hn _ (by simp))]; rfl⟩

/-- The loop, with the test as a parameter. -/
def strBody (z : BitVec 32 → Bool) (mem : Bytes) (s : Abc) (key : Nat) : Option Abc := do
  let v ← leRead mem key
  if z v then
    return { s with a := strTail v s.a }
  let s := { s with a := s.a + v }
  let v ← leRead mem (key + 4)
  if z v then
    return { s with b := strTail v s.b }
  let s := { s with b := s.b + v }
  let v ← leRead mem (key + 8)
  if z v then
    return { s with c := strTail v s.c }
  let s := { s with c := s.c + v }
  strLoop mem (mix s) (key + 12)

theorem strLoop_body (mem : Bytes) (s : Abc) (key : Nat) :
    strLoop mem s key = strBody (fun v => hasZeroU32 v.toNat) mem s key := by
  rw [strLoop]; rfl

section
variable {z : BitVec 32 → Bool} {mem : Bytes} {s : Abc} {p : Nat} {v0 v1 v2 : BitVec 32}

theorem strBody_none0 (h : leRead mem p = none) : strBody z mem s p = none := by
  simp [strBody, h]

theorem strBody_end0 (h : leRead mem p = some v0) (hz : z v0 = true) :
    strBody z mem s p = some { s with a := strTail v0 s.a } := by
  simp [strBody, h, hz]

theorem strBody_none1 (h : leRead mem p = some v0) (hz : z v0 = false) (h1 : leRead mem (p + 4) = none) :
    strBody z mem s p = none := by
  simp [strBody, h, hz, h1]

theorem strBody_end1 (h : leRead mem p = some v0) (hz : z v0 = false) (h1 : leRead mem (p + 4) = some v1)
    (hz1 : z v1 = true) : strBody z mem s p = some ⟨s.a + v0, strTail v1 s.b, s.c⟩ := by
  simp [strBody, h, hz, h1, hz1]

theorem strBody_none2 (h : leRead mem p = some v0) (hz : z v0 = false) (h1 : leRead mem (p + 4) = some v1)
    (hz1 : z v1 = false) (h2 : leRead mem (p + 8) = none) : strBody z mem s p = none := by
  simp [strBody, h, hz, h1, hz1, h2]

theorem strBody_end2 (h : leRead mem p = some v0) (hz : z v0 = false) (h1 : leRead mem (p + 4) = some v1)
    (hz1 : z v1 = false) (h2 : leRead mem (p + 8) = some v2) (hz2 : z v2 = true) :
    strBody z mem s p = some ⟨s.a + v0, s.b + v1, strTail v2 s.c⟩ := by
  simp [strBody, h, hz, h1, hz1, h2, hz2]

theorem strBody_next (h : leRead mem p = some v0) (hz : z v0 = false) (h1 : leRead mem (p + 4) = some v1)
    (hz1 : z v1 = false) (h2 : leRead mem (p + 8) = some v2) (hz2 : z v2 = false) :
    strBody z mem s p = strLoop mem (mix ⟨s.a + v0, s.b + v1, s.c + v2⟩) (p + 12) := by
  simp [strBody, h, hz, h1, hz1, h2, hz2]

end

theorem strLoop_eq (mem : Bytes) : ∀ (n : Nat) (l : List Byte) (s : Abc) (off : Nat), l.length = n → IsStr mem off l →
    Readable mem off l → ∃ s', strLoop mem s off = some s' ∧ (final s').st = Lookup3.runStr s.st l := by
  intro n
  induction n using Nat.strongRecOn with
  | _ n ih =>
    intro l s off hl hs hr
    rw [strLoop_body, Lookup3.runStr]
    by_cases c0 : l.length < 4
    · obtain ⟨v, e1, e2, e3⟩ := strWord_last hs hr (i := 0) (by omega) (by omega)
      simp only [Nat.mul_zero, Nat.add_zero] at e1
      rw [if_pos (by omega)]
      refine ⟨_, strBody_end0 e1 e2, ?_⟩
      rw [final_eq, e3]
      simp only [Lookup3.absorb, Abc.st, word_nil l 1 (by omega), word_nil l 2 (by omega), BitVec.add_zero]
    obtain ⟨a1, a2⟩ := strWord_full hs (i := 0) (by omega)
    simp only [Nat.mul_zero, Nat.add_zero] at a1
    by_cases c1 : l.length < 8
    · obtain ⟨v, e1, e2, e3⟩ := strWord_last hs hr (i := 1) (by omega) (by omega)
      simp only [Nat.mul_one] at e1
      rw [if_pos (by omega)]
      refine ⟨_, strBody_end1 a1 a2 e1 e2, ?_⟩
      rw [final_eq, e3]
      simp only [Lookup3.absorb, Abc.st, word_nil l 2 (by omega), BitVec.add_zero]
    obtain ⟨b1, b2⟩ := strWord_full hs (i := 1) (by omega)
    simp only [Nat.mul_one] at b1
    by_cases c2 : l.length < 12
    · obtain ⟨v, e1, e2, e3⟩ := strWord_last hs hr (i := 2) (by omega) (by omega)
      simp only [Nat.reduceMul] at e1
      rw [if_pos (by omega)]
      refine ⟨_, strBody_end2 a1 a2 b1 b2 e1 e2, ?_⟩
      rw [final_eq, e3]
      simp only [Lookup3.absorb, Abc.st]
    obtain ⟨d1, d2⟩ := strWord_full hs (i := 2) (by omega)
    simp only [Nat.reduceMul] at d1
    rw [if_neg c2, strBody_next a1 a2 b1 b2 d1 d2]
    have hd : (l.drop 12).length = l.length - 12 := List.length_drop
    obtain ⟨s', e, a⟩ := ih (l.length - 12) (by omega) (l.drop 12)
      (mix ⟨s.a + Lookup3.word l 0, s.b + Lookup3.word l 1, s.c + Lookup3.word l 2⟩) (off + 12) hd (hs.drop (by omega))
      (hr.drop (j := 3) (by omega))
    refine ⟨s', e, ?_⟩
    rw [a, mix_eq]
    simp only [Lookup3.absorb, word_take (show 0 < 3 by omega), word_take (show 1 < 3 by omega),
          word_take (show 2 < 3 by omega), Abc.st]

theorem strhashU32_eq {mem : Bytes} {l : List Byte} (hs : IsStr mem 0 l) (hr : Readable mem 0 l) (init : BitVec 64) :
    strhashU32 init mem = some (Lookup3.hashstr (init.setWidth 32) l) := by
  unfold strhashU32 Lookup3.hashstr
  have hv : (0xdeadbeef#64 + init).setWidth 32 = 0xdeadbeef#32 + init.setWidth 32 := by
    rw [BitVec.setWidth_add _ _ (by omega)]; rfl
  rw [hv]
  obtain ⟨s', e, a⟩ := strLoop_eq mem _ l ⟨0xdeadbeef#32 + init.setWidth 32, 0xdeadbeef#32 + init.setWidth 32,
    0xdeadbeef#32 + init.setWidth 32⟩ 0 rfl hs hr
  simp only [e, Option.bind_eq_bind, Option.bind_some, Option.pure_def]
  simp only [Abc.st] at a
  rw [← a]

theorem leRead_none {mem : Bytes} {p : Nat} (h : ∃ k, k < 4 ∧ mem (p + k) = none) : leRead mem p = none := by
  obtain ⟨k, hk, h⟩ := h
  unfold leRead
  simp only [Option.bind_eq_bind, Option.pure_def]
  match k, hk with
  | 0, _ => rw [h]; rfl
  | 1, _ => rw [h]; cases mem (p + 0) <;> rfl
  | 2, _ => rw [h]; cases mem (p + 0) <;> cases mem (p + 1) <;> rfl
  | 3, _ => rw [h]; cases mem (p + 0) <;> cases mem (p + 1) <;> cases mem (p + 2) <;> rfl

/-- If the word with the terminator cannot be read completely the behaviour is undefined. -/
theorem strLoop_none (mem : Bytes) : ∀ (n : Nat) (l : List Byte) (s : Abc) (off : Nat), l.length = n → IsStr mem off l →
    (∃ k, k < 4 ∧ mem (off + 4 * (l.length / 4) + k) = none) → strLoop mem s off = none := by
  intro n
  induction n using Nat.strongRecOn with
  | _ n ih =>
    intro l s off hl hs hr
    have hrd := leRead_none hr
    rw [strLoop_body]
    by_cases c0 : l.length < 4
    · rw [Nat.div_eq_of_lt c0, Nat.mul_zero, Nat.add_zero] at hrd
      exact strBody_none0 hrd
    obtain ⟨a1, a2⟩ := strWord_full hs (i := 0) (by omega)
    simp only [Nat.mul_zero, Nat.add_zero] at a1
    by_cases c1 : l.length < 8
    · rw [show l.length / 4 = 1 by omega] at hrd
      simp only [Nat.mul_one] at hrd
      exact strBody_none1 a1 a2 hrd
    obtain ⟨b1, b2⟩ := strWord_full hs (i := 1) (by omega)
    simp only [Nat.mul_one] at b1
    by_cases c2 : l.length < 12
    · rw [show l.length / 4 = 2 by omega] at hrd
      simp only [Nat.reduceMul] at hrd
      exact strBody_none2 a1 a2 b1 b2 hrd
    obtain ⟨d1, d2⟩ := strWord_full hs (i := 2) (by omega)
    simp only [Nat.reduceMul] at d1
    have hd : (l.drop 12).length = l.length - 12 := List.length_drop
    rw [strBody_next a1 a2 b1 b2 d1 d2]
    apply ih (l.length - 12) (by omega) (l.drop 12) _ (off + 12) hd (hs.drop (by omega))
    obtain ⟨k, hk, h⟩ := hr
    refine ⟨k, hk, ?_⟩
    rw [hd, show off + 12 + 4 * ((l.length - 12) / 4) + k = off + 4 * (l.length / 4) + k by omega, h]

end Tommy
