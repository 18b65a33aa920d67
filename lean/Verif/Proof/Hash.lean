import Verif.Model.Hash
import Verif.Spec.Lookup3
import Verif.Proof.Bits
import Mathlib.Tactic.IntervalCases
/-! Hash functions. -/
set_option linter.unusedSimpArgs false
namespace Tommy
open Lookup3 (Byte)

theorem rot_eq (x : BitVec 32) {k : Nat} (_h : 0 < k) (h' : k < 32) : rot x k = x.rotateLeft k := by
  rw [rot, BitVec.rotateLeft_def, Nat.mod_eq_of_lt h']

def Abc.st (s : Abc) : Lookup3.State := (s.a, s.b, s.c)

theorem mix_eq (s : Abc) : (mix s).st = Lookup3.mix s.st := by
  simp only [mix, Abc.st, Lookup3.mix, Lookup3.mixLine, rot_eq _ (show 0 < 4 by omega) (by omega),
    rot_eq _ (show 0 < 6 by omega) (by omega), rot_eq _ (show 0 < 8 by omega) (by omega),
    rot_eq _ (show 0 < 16 by omega) (by omega), rot_eq _ (show 0 < 19 by omega) (by omega)]

theorem final_eq (s : Abc) : (final s).st = Lookup3.final s.st := by
  simp only [final, Abc.st, Lookup3.final, Lookup3.finalLine, rot_eq _ (show 0 < 4 by omega) (by omega),
    rot_eq _ (show 0 < 14 by omega) (by omega), rot_eq _ (show 0 < 11 by omega) (by omega),
    rot_eq _ (show 0 < 16 by omega) (by omega), rot_eq _ (show 0 < 25 by omega) (by omega),
    rot_eq _ (show 0 < 24 by omega) (by omega)]

theorem shl_ofNat (b : BitVec 8) (k : Nat) : u8to32 b <<< k = BitVec.ofNat 32 (b.toNat * 2 ^ k) := by
  apply BitVec.eq_of_toNat_eq
  have := b.isLt
  simp [u8to32, Nat.shiftLeft_eq, Nat.mod_eq_of_lt (show b.toNat < 4294967296 by omega)]

theorem u8to32_ofNat (b : BitVec 8) : u8to32 b = BitVec.ofNat 32 b.toNat := by
  apply BitVec.eq_of_toNat_eq
  simp [u8to32]

theorem leRead_eq {mem : Bytes} {p : Nat} {b0 b1 b2 b3 : Byte} (h0 : mem p = some b0) (h1 : mem (p + 1) = some b1)
    (h2 : mem (p + 2) = some b2) (h3 : mem (p + 3) = some b3) :
    leRead mem p = some (BitVec.ofNat 32 (Lookup3.le [b0, b1, b2, b3])) := by
  simp only [leRead, Nat.add_zero, h0, h1, h2, h3, shl_ofNat, Lookup3.le,
    Option.bind_eq_bind, Option.bind_some, Option.pure_def]
  rw [u8to32_ofNat b0, ← BitVec.ofNat_add, ← BitVec.ofNat_add, ← BitVec.ofNat_add]
  have : ∀ a b c d : Nat, a + b * 2 ^ 8 + c * 2 ^ 16 + d * 2 ^ 24 = a + 256 * (b + 256 * (c + 256 * (d + 256 * 0))) := by
    intros; omega
  rw [this]

/-- `l` is in the memory at `off`. -/
def InMem (mem : Bytes) (off : Nat) (l : List Byte) : Prop := ∀ i (h : i < l.length), mem (off + i) = some l[i]

theorem InMem.drop {mem : Bytes} {off : Nat} {l : List Byte} (h : InMem mem off l) (k : Nat) :
    InMem mem (off + k) (l.drop k) := by
  intro i hi
  simp only [List.length_drop] at hi
  rw [Nat.add_assoc, h (k + i) (by omega), List.getElem_drop]

theorem leRead_word {mem : Bytes} {off : Nat} {l : List Byte} (h : InMem mem off l) {i : Nat}
    (hi : 4 * i + 4 ≤ l.length) : leRead mem (off + 4 * i) = some (Lookup3.word l i) := by
  have hd := h.drop (4 * i)
  have hl : 4 ≤ (l.drop (4 * i)).length := by rw [List.length_drop]; omega
  unfold Lookup3.word
  generalize l.drop (4 * i) = d at hd hl
  match d, hl with
  | b0 :: b1 :: b2 :: b3 :: d, _ =>
    have a0 := hd 0 (by simp)
    have a1 := hd 1 (by simp)
    have a2 := hd 2 (by simp)
    have a3 := hd 3 (by simp)
    simp only [List.getElem_cons_zero, List.getElem_cons_succ, Nat.add_zero] at a0 a1 a2 a3
    rw [leRead_eq a0 a1 a2 a3]
    rfl

theorem word_take {l : List Byte} {i : Nat} (hi : i < 3) : Lookup3.word (l.take 12) i = Lookup3.word l i := by
  unfold Lookup3.word
  rw [List.drop_take, List.take_take, Nat.min_eq_left (by omega)]

theorem hashLoop_eq (mem : Bytes) : ∀ (n : Nat) (l : List Byte) (s : Abc) (off : Nat), l.length = n → InMem mem off l →
    l ≠ [] → ∃ s' l' off', hashLoop mem s l.length off = some (s', l'.length, off') ∧ InMem mem off' l' ∧
      l' ≠ [] ∧ l'.length ≤ 12 ∧ Lookup3.run s.st l = Lookup3.final (Lookup3.absorb s'.st l') := by
  intro n
  induction n using Nat.strongRecOn with
  | _ n ih =>
    intro l s off hl hm hne
    rw [hashLoop, Lookup3.run]
    by_cases h : l.length ≤ 12
    · rw [if_neg (by omega), if_pos h]
      exact ⟨s, l, off, rfl, hm, hne, h, rfl⟩
    · rw [if_pos (by omega), if_neg h]
      have r0 := leRead_word hm (i := 0) (by omega)
      have r1 := leRead_word hm (i := 1) (by omega)
      have r2 := leRead_word hm (i := 2) (by omega)
      simp only [Nat.mul_zero, Nat.mul_one, Nat.reduceMul] at r0 r1 r2
      simp only [r0, r1, r2, Option.bind_eq_bind, Option.bind_some]
      have hd : (l.drop 12).length = l.length - 12 := List.length_drop
      obtain ⟨s', l', off', e, a⟩ := ih (l.length - 12) (by omega) (l.drop 12)
        (mix ⟨s.a + Lookup3.word l 0, s.b + Lookup3.word l 1, s.c + Lookup3.word l 2⟩) (off + 12) hd (hm.drop 12)
        (by intro h0; rw [h0] at hd; simp at hd; omega)
      rw [hd] at e
      refine ⟨s', l', off', e, ?_⟩
      rw [mix_eq] at a
      have : Lookup3.absorb s.st (l.take 12) =
          Abc.st ⟨s.a + Lookup3.word l 0, s.b + Lookup3.word l 1, s.c + Lookup3.word l 2⟩ := by
        simp only [Lookup3.absorb, word_take (show 0 < 3 by omega), word_take (show 1 < 3 by omega),
          word_take (show 2 < 3 by omega), Abc.st]
      rw [this]; exact a

theorem byteAt_eq {mem : Bytes} {off : Nat} {l : List Byte} (h : InMem mem off l) {i : Nat} (hi : i < l.length) (k : Nat) :
    byteAt mem (off + i) k = some (BitVec.ofNat 32 ((l.getD (i) 0).toNat * 2 ^ k)) := by
  simp [byteAt, h i hi, shl_ofNat, hi]

theorem word_nil (l : List Byte) (i : Nat) (h : l.length ≤ 4 * i) : Lookup3.word l i = 0#32 := by
  unfold Lookup3.word
  rw [List.drop_eq_nil_of_le h]
  rfl

theorem ofNat_le3 (b0 b1 b2 : Byte) : BitVec.ofNat 32 (Lookup3.le [b0, b1, b2]) =
    BitVec.ofNat 32 (b2.toNat * 2 ^ 16) + BitVec.ofNat 32 (b1.toNat * 2 ^ 8) + BitVec.ofNat 32 (b0.toNat * 2 ^ 0) := by
  rw [← BitVec.ofNat_add, ← BitVec.ofNat_add]
  have : ∀ a b c : Nat, c * 2 ^ 16 + b * 2 ^ 8 + a * 2 ^ 0 = a + 256 * (b + 256 * (c + 256 * 0)) := by
    intros; omega
  rw [this]; rfl

theorem ofNat_le2 (b0 b1 : Byte) : BitVec.ofNat 32 (Lookup3.le [b0, b1]) =
    BitVec.ofNat 32 (b1.toNat * 2 ^ 8) + BitVec.ofNat 32 (b0.toNat * 2 ^ 0) := by
  rw [← BitVec.ofNat_add]
  have : ∀ a b : Nat, b * 2 ^ 8 + a * 2 ^ 0 = a + 256 * (b + 256 * 0) := by
    intros; omega
  rw [this]; rfl

theorem ofNat_le1 (b0 : Byte) : BitVec.ofNat 32 (Lookup3.le [b0]) = BitVec.ofNat 32 (b0.toNat * 2 ^ 0) := by
  have : ∀ a : Nat, a * 2 ^ 0 = a + 256 * 0 := by
    intros; omega
  rw [this]; rfl

/-- The last bytes of the `i`-th word. -/
theorem word3 (l : List Byte) (i : Nat) (h : l.length = 4 * i + 3) : Lookup3.word l i =
    BitVec.ofNat 32 ((l.getD (4 * i + 2) 0).toNat * 2 ^ 16) + BitVec.ofNat 32 ((l.getD (4 * i + 1) 0).toNat * 2 ^ 8) +
      BitVec.ofNat 32 ((l.getD (4 * i) 0).toNat * 2 ^ 0) := by
  rw [← ofNat_le3, Lookup3.word]
  congr 2
  apply List.ext_getElem
  · simp; omega
  · intro j h1 h2
    simp only [List.length_cons, List.length_nil] at h2
    match j, h2 with
    | 0, _ => simp [h]
    | 1, _ => simp [h]
    | 2, _ => simp [h]

theorem word2 (l : List Byte) (i : Nat) (h : l.length = 4 * i + 2) : Lookup3.word l i =
    BitVec.ofNat 32 ((l.getD (4 * i + 1) 0).toNat * 2 ^ 8) + BitVec.ofNat 32 ((l.getD (4 * i) 0).toNat * 2 ^ 0) := by
  rw [← ofNat_le2, Lookup3.word]
  congr 2
  apply List.ext_getElem
  · simp; omega
  · intro j h1 h2
    simp only [List.length_cons, List.length_nil] at h2
    match j, h2 with
    | 0, _ => simp [h]
    | 1, _ => simp [h]

theorem word1 (l : List Byte) (i : Nat) (h : l.length = 4 * i + 1) : Lookup3.word l i =
    BitVec.ofNat 32 ((l.getD (4 * i) 0).toNat * 2 ^ 0) := by
  rw [← ofNat_le1, Lookup3.word]
  congr 2
  apply List.ext_getElem
  · simp; omega
  · intro j h1 h2
    simp only [List.length_cons, List.length_nil] at h2
    match j, h2 with
    | 0, _ => simp [h]

theorem hashSwitch_eq {mem : Bytes} {off : Nat} {l : List Byte} (h : InMem mem off l) (hne : l ≠ [])
    (hl : l.length ≤ 12) (s : Abc) : ∃ s', hashSwitch mem s off l.length = some s' ∧ s'.st = Lookup3.absorb s.st l := by
  have hpos : 0 < l.length := List.length_pos_iff.2 hne
  have w0 := @leRead_word mem off l h 0
  have w1 := @leRead_word mem off l h 1
  have w2 := @leRead_word mem off l h 2
  have e := fun i => @byteAt_eq mem off l h i
  unfold Lookup3.absorb Abc.st
  have n0 := word_nil l 0
  have n1 := word_nil l 1
  have n2 := word_nil l 2
  have a0 := word1 l 0
  have a1 := word1 l 1
  have a2 := word1 l 2
  have b0 := word2 l 0
  have b1 := word2 l 1
  have b2 := word2 l 2
  have c0 := word3 l 0
  have c1 := word3 l 1
  have c2 := word3 l 2
  generalize hn : l.length = n at *
  simp only [Nat.mul_zero, Nat.mul_one, Nat.reduceMul, Nat.zero_add, Nat.reduceAdd] at *
  have hn12 : n = 1 ∨ n = 2 ∨ n = 3 ∨ n = 4 ∨ n = 5 ∨ n = 6 ∨ n = 7 ∨ n = 8 ∨ n = 9 ∨ n = 10 ∨ n = 11 ∨ n = 12 := by omega
  rcases hn12 with rfl | rfl | rfl | rfl | rfl | rfl | rfl | rfl | rfl | rfl | rfl | rfl
  · simp only [hashSwitch, Option.bind_eq_bind, Option.bind_some, Option.pure_def, a0 rfl, e 0 (by omega),
      n1 (by omega), n2 (by omega), BitVec.add_zero]
    exact ⟨_, rfl, rfl⟩
  · simp only [hashSwitch, Option.bind_eq_bind, Option.bind_some, Option.pure_def, b0 rfl, e 0 (by omega),
      e 1 (by omega), n1 (by omega), n2 (by omega), BitVec.add_zero, BitVec.add_assoc]
    exact ⟨_, rfl, rfl⟩
  · simp only [hashSwitch, Option.bind_eq_bind, Option.bind_some, Option.pure_def, c0 rfl, e 0 (by omega),
      e 1 (by omega), e 2 (by omega), n1 (by omega), n2 (by omega), BitVec.add_zero, BitVec.add_assoc]
    exact ⟨_, rfl, rfl⟩
  · simp only [hashSwitch, Option.bind_eq_bind, Option.bind_some, Option.pure_def, w0 (by omega), n1 (by omega),
      n2 (by omega), BitVec.add_zero]
    exact ⟨_, rfl, rfl⟩
  · simp only [hashSwitch, Option.bind_eq_bind, Option.bind_some, Option.pure_def, w0 (by omega), a1 rfl,
      e 4 (by omega), n2 (by omega), BitVec.add_zero]
    exact ⟨_, rfl, rfl⟩
  · simp only [hashSwitch, Option.bind_eq_bind, Option.bind_some, Option.pure_def, w0 (by omega), b1 rfl,
      e 4 (by omega), e 5 (by omega), n2 (by omega), BitVec.add_zero, BitVec.add_assoc]
    exact ⟨_, rfl, rfl⟩
  · simp only [hashSwitch, Option.bind_eq_bind, Option.bind_some, Option.pure_def, w0 (by omega), c1 rfl,
      e 4 (by omega), e 5 (by omega), e 6 (by omega), n2 (by omega), BitVec.add_zero, BitVec.add_assoc]
    exact ⟨_, rfl, rfl⟩
  · simp only [hashSwitch, Option.bind_eq_bind, Option.bind_some, Option.pure_def, w0 (by omega), w1 (by omega),
      n2 (by omega), BitVec.add_zero]
    exact ⟨_, rfl, rfl⟩
  · simp only [hashSwitch, Option.bind_eq_bind, Option.bind_some, Option.pure_def, w0 (by omega), w1 (by omega),
      a2 rfl, e 8 (by omega), BitVec.add_zero]
    exact ⟨_, rfl, rfl⟩
  · simp only [hashSwitch, Option.bind_eq_bind, Option.bind_some, Option.pure_def, w0 (by omega), w1 (by omega),
      b2 rfl, e 8 (by omega), e 9 (by omega), BitVec.add_zero, BitVec.add_assoc]
    exact ⟨_, rfl, rfl⟩
  · simp only [hashSwitch, Option.bind_eq_bind, Option.bind_some, Option.pure_def, w0 (by omega), w1 (by omega),
      c2 rfl, e 8 (by omega), e 9 (by omega), e 10 (by omega), BitVec.add_zero, BitVec.add_assoc]
    exact ⟨_, rfl, rfl⟩
  · simp only [hashSwitch, Option.bind_eq_bind, Option.bind_some, Option.pure_def, w0 (by omega), w1 (by omega),
      w2 (by omega), BitVec.add_zero]
    exact ⟨_, rfl, rfl⟩

end Tommy
