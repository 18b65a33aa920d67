import Verif.Proof.HashFun
import Verif.Proof.IntHash
/-! # Hash functions: properties C40 - C44 -/
set_option autoImplicit false
namespace Tommy
open Lookup3 (Byte)

/-- **C40** `tommy_inthash_u32` and `tommy_inthash_u64` are bijections. -/
theorem C40_inthash_u32 : Function.Bijective inthashU32 := ⟨inthashU32_inj, bv_surj inthashU32_inj⟩

theorem C40_inthash_u64 : Function.Bijective inthashU64 := ⟨inthashU64_inj, bv_surj inthashU64_inj⟩

/-- **C41** `tommy_hash_u32` is lookup3, whatever is in the memory out of the key, also if it cannot be read. -/
theorem C41_hash_u32 (init : BitVec 32) (l : List Byte) (mem : Bytes)
    (h : ∀ i (h : i < l.length), mem i = some l[i]) :
    hashU32 init mem l.length = some (Lookup3.hashlittle init l) := hashU32_eq h init

/-- **C41** the same for `tommy_hash_u64`. -/
theorem C41_hash_u64 (init : BitVec 64) (l : List Byte) (mem : Bytes)
    (h : ∀ i (h : i < l.length), mem i = some l[i]) :
    hashU64 init mem l.length = some (Lookup3.hashlittle2 init l) := hashU64_eq h init

/-- **C41** only the key can be read: the function also works if the memory is exactly the key. -/
theorem C41_only_key (init : BitVec 32) (init' : BitVec 64) (l : List Byte) :
    hashU32 init (fun i => l[i]?) l.length = some (Lookup3.hashlittle init l) ∧
      hashU64 init' (fun i => l[i]?) l.length = some (Lookup3.hashlittle2 init' l) :=
  ⟨hashU32_eq (fun _ hi => List.getElem?_eq_getElem hi) init, hashU64_eq (fun _ hi => List.getElem?_eq_getElem hi) init'⟩

theorem lookup3_low (init : BitVec 32) (l : List Byte) :
    (Lookup3.hashlittle2 (init.setWidth 64) l).setWidth 32 = Lookup3.hashlittle init l := by
  have h0 : (init.setWidth 64).extractLsb' 0 32 = init := by
    apply BitVec.eq_of_toNat_eq
    have := init.isLt
    simpa using this
  have h1 : (init.setWidth 64).extractLsb' 32 32 = 0#32 := by
    apply BitVec.eq_of_toNat_eq
    have := init.isLt
    simp only [BitVec.extractLsb'_toNat, BitVec.toNat_setWidth, Nat.shiftRight_eq_div_pow, BitVec.toNat_ofNat]
    omega
  have h2 : ∀ x y : BitVec 32, (x ++ y : BitVec 64).setWidth 32 = y := fun x y => by
    apply BitVec.eq_of_toNat_eq
    have := y.isLt
    rw [BitVec.toNat_setWidth, BitVec.toNat_append, ← Nat.shiftLeft_add_eq_or_of_lt this, Nat.shiftLeft_eq]
    omega
  unfold Lookup3.hashlittle2 Lookup3.hashlittle
  simp only [h0, h1, h2, BitVec.add_zero]
  split <;> rfl

/-- **C42** the low 32 bits of `tommy_hash_u64` are `tommy_hash_u32` if `init_val` is less than 2^32. -/
theorem C42_low_bits (init : BitVec 32) (l : List Byte) (mem : Bytes)
    (h : ∀ i (h : i < l.length), mem i = some l[i]) :
    ∃ r, hashU64 (init.setWidth 64) mem l.length = some r ∧ hashU32 init mem l.length = some (r.setWidth 32) :=
  ⟨_, hashU64_eq h _, by rw [hashU32_eq h, lookup3_low]⟩

/-- The string `l` is at the start of the memory, followed by its terminator. -/
def ZString (mem : Bytes) (l : List Byte) : Prop :=
  (∀ i (h : i < l.length), mem i = some l[i]) ∧ mem l.length = some 0 ∧ ∀ b ∈ l, b ≠ 0

theorem ZString.isStr {mem : Bytes} {l : List Byte} (h : ZString mem l) : IsStr mem 0 l :=
  ⟨fun i hi => by rw [Nat.zero_add]; exact h.1 i hi, by rw [Nat.zero_add]; exact h.2.1, h.2.2⟩

/-- **C43** `tommy_strhash_u32` is a function of `init_val` modulo 2^32 and of the string: it is computed by
    the specification, whatever are the (readable) bytes after the terminator. -/
theorem C43_strhash (init : BitVec 64) (l : List Byte) (mem : Bytes) (hs : ZString mem l)
    (hr : ∀ i, i < 4 * (l.length / 4) + 4 → (mem i).isSome) :
    strhashU32 init mem = some (Lookup3.hashstr (init.setWidth 32) l) :=
  strhashU32_eq hs.isStr (fun i hi => by rw [Nat.zero_add]; exact hr i hi) init

/-- **C43** the bytes after the terminator never change the result. -/
theorem C43_only_string (init : BitVec 64) (l : List Byte) (mem mem' : Bytes) (hs : ZString mem l) (hs' : ZString mem' l)
    (hr : ∀ i, i < 4 * (l.length / 4) + 4 → (mem i).isSome) (hr' : ∀ i, i < 4 * (l.length / 4) + 4 → (mem' i).isSome) :
    strhashU32 init mem = strhashU32 init mem' ∧ (strhashU32 init mem).isSome := by
  rw [C43_strhash init l mem hs hr, C43_strhash init l mem' hs' hr']
  exact ⟨rfl, rfl⟩

/-- **C44** is false: for every string with length not congruent to 3 modulo 4, if nothing after the
    terminator can be read then the behaviour is undefined. -/
theorem C44_overread (init : BitVec 64) (l : List Byte) (hl : l.length % 4 ≠ 3) (mem : Bytes) (hs : ZString mem l)
    (he : ∀ i, l.length < i → mem i = none) : strhashU32 init mem = none := by
  unfold strhashU32
  simp only [strLoop_none mem _ l _ 0 rfl hs.isStr ⟨3, by omega, he _ (by omega)⟩, Option.bind_eq_bind, Option.bind_none]

/-- **C44** the negation, with the empty string as witness. -/
theorem C44_false : ¬ ∀ (init : BitVec 64) (l : List Byte) (mem : Bytes), ZString mem l →
    (∀ i, l.length < i → mem i = none) → (strhashU32 init mem).isSome := by
  intro h
  have hz : ZString (fun i => if i = 0 then some 0 else none) [] :=
    ⟨fun i hi => by simp at hi, rfl, fun b hb => by simp at hb⟩
  have he : ∀ i, ([] : List Byte).length < i → (fun i => if i = 0 then some (0 : Byte) else none) i = none := by
    intro i hi
    simp only [List.length_nil] at hi
    simp only [if_neg (show i ≠ 0 by omega)]
  have := h 0 [] _ hz he
  rw [C44_overread 0 [] (by decide) _ hz he] at this
  cases this

/-- **C44** what holds: nothing is read out of the group of 4 bytes (counted from the start of the string)
    containing the terminator, and if the length is congruent to 3 modulo 4 only the string is read. -/
theorem C44_partial (init : BitVec 64) (l : List Byte) (mem : Bytes) (hs : ZString mem l) :
    ((∀ i, i < 4 * (l.length / 4) + 4 → (mem i).isSome) → (strhashU32 init mem).isSome) ∧
      (l.length % 4 = 3 → (strhashU32 init mem).isSome) := by
  have key : (∀ i, i < 4 * (l.length / 4) + 4 → (mem i).isSome) → (strhashU32 init mem).isSome := by
    intro hr; rw [C43_strhash init l mem hs hr]; rfl
  refine ⟨key, fun h3 => key fun i hi => ?_⟩
  by_cases h : i < l.length
  · rw [hs.1 i h]; rfl
  · rw [show i = l.length by omega, hs.2.1]; rfl

/-! ## Concrete cases -/

/-- lookup3's own test vectors: hashlittle("", 0) = 0xdeadbeef, hashlittle("Four score and seven years ago", 0) =
    0x17770551 and with initial value 1 0xcd628161. -/
def fourScore : List Byte :=
  [70, 111, 117, 114, 32, 115, 99, 111, 114, 101, 32, 97, 110, 100, 32, 115, 101, 118, 101, 110, 32, 121, 101, 97,
   114, 115, 32, 97, 103, 111]

example : Lookup3.hashlittle 0 [] = 0xdeadbeef#32 := by decide

theorem runFour (s : Lookup3.State) : Lookup3.run s fourScore =
    Lookup3.final (Lookup3.absorb (Lookup3.mix (Lookup3.absorb (Lookup3.mix (Lookup3.absorb s (fourScore.take 12)))
      ((fourScore.drop 12).take 12))) (fourScore.drop 24)) := by
  rw [Lookup3.run, if_neg (by decide), Lookup3.run, if_neg (by decide), Lookup3.run, if_pos (by decide)]
  rfl

example : Lookup3.hashlittle 0 fourScore = 0x17770551#32 ∧ Lookup3.hashlittle 1 fourScore = 0xcd628161#32 := by
  simp only [Lookup3.hashlittle, runFour]
  decide +kernel

/-- hashlittle2("Four score and seven years ago") with both initial values 0: c is as for hashlittle(). -/
example : Lookup3.hashlittle2 0#64 fourScore = 0xce7226e617770551#64 := by
  simp only [Lookup3.hashlittle2, runFour]
  decide +kernel

example : hashU32 0 (fun i => fourScore[i]?) 30 = some 0x17770551#32 := by
  rw [show (30 : Nat) = fourScore.length from rfl, (C41_only_key 0 0 fourScore).1]
  simp only [Lookup3.hashlittle, runFour]
  decide +kernel

example : inthashU32 1 ≠ inthashU32 2 := fun h => absurd (C40_inthash_u32.1 h) (by decide)

/-- The string "abc" fits exactly in 4 bytes. -/
example : (strhashU32 7 (fun i => [97, 98, 99, 0][i]?)).isSome :=
  (C44_partial 7 [97, 98, 99] _ ⟨fun i hi => by
    match i, hi with
    | 0, _ => rfl
    | 1, _ => rfl
    | 2, _ => rfl, rfl, by decide⟩).2 rfl

/-- "ab" followed by two different bytes has the same hash. -/
example : strhashU32 7 (fun i => [97, 98, 0, 1][i]?) = strhashU32 7 (fun i => [97, 98, 0, 255][i]?) :=
  have r : ∀ b : Byte, ∀ i, i < 4 * ([97, 98] : List Byte).length / 4 * 1 + 2 → ([97, 98, 0, b][i]?).isSome := fun b i hi => by
    match i, hi with
    | 0, _ => rfl
    | 1, _ => rfl
    | 2, _ => rfl
    | 3, _ => rfl
  have z : ∀ b : Byte, ZString (fun i => [97, 98, 0, b][i]?) [97, 98] := fun b => ⟨fun i hi => by
    match i, hi with
    | 0, _ => rfl
    | 1, _ => rfl, rfl, by decide⟩
  (C43_only_string 7 [97, 98] _ _ (z 1) (z 255) (fun i hi => r 1 i (by simpa using hi)) (fun i hi => r 255 i (by simpa using hi))).1

end Tommy
