import Verif.Proof.CHashRun
import Verif.Props.HashFun
import Verif.Props.Bits
/-! # The text of tommyhash.h, of tommyhash.c and of the bit functions of tommytypes.h: property C77 -/
set_option autoImplicit false
set_option linter.unusedSectionVars false
namespace Tommy
open C
open Src
open Lookup3 (Byte)

section
variable [Arch] (ext : Ext) {w : BMem} {p : Nat} {l : List Byte}

/-- **C77** the text of `tommy_hash_u32` computes lookup3 of the bytes of the key, reads nothing else and writes nothing.
    In both texts of `tommy_le_uint32_read`. -/
theorem C77_hash_u32 (t : CTy) (init : BitVec 32) (hp : p < 2 ^ sizeBit) (hl : l.length < 2 ^ sizeBit) (h : KeyAt w p l) :
    run ext "tommy_hash_u32" [⟨.u32, init.toNat⟩, ⟨.ptr t, p⟩, ⟨.usize, l.length⟩] w = some (⟨.u32, (Lookup3.hashlittle init l).toNat⟩, w) ∧
    runX86 ext "tommy_hash_u32" [⟨.u32, init.toNat⟩, ⟨.ptr t, p⟩, ⟨.usize, l.length⟩] w = some (⟨.u32, (Lookup3.hashlittle init l).toNat⟩, w) := by
  have e := (C41_only_key init 0 l).1
  constructor
  · rw [run_fun rfl (show funs _ = some f_tommy_hash_u32 from rfl)]
    exact exec_hash32 ext (h.src ext) t init hp hl _ (by rw [e]; rfl)
  · rw [run_x86 ext rfl (by decide) (show funs _ = some f_tommy_hash_u32 from rfl)]
    exact exec_hash32 ext (h.srcX86 ext) t init hp hl _ (by rw [e]; rfl)

/-- **C77** the same for `tommy_hash_u64`. -/
theorem C77_hash_u64 (t : CTy) (init : BitVec 64) (hp : p < 2 ^ sizeBit) (hl : l.length < 2 ^ sizeBit) (h : KeyAt w p l) :
    run ext "tommy_hash_u64" [⟨.u64, init.toNat⟩, ⟨.ptr t, p⟩, ⟨.usize, l.length⟩] w = some (⟨.u64, (Lookup3.hashlittle2 init l).toNat⟩, w) ∧
    runX86 ext "tommy_hash_u64" [⟨.u64, init.toNat⟩, ⟨.ptr t, p⟩, ⟨.usize, l.length⟩] w = some (⟨.u64, (Lookup3.hashlittle2 init l).toNat⟩, w) := by
  have e := (C41_only_key 0 init l).2
  constructor
  · rw [run_fun rfl (show funs _ = some f_tommy_hash_u64 from rfl)]
    exact exec_hash64 ext (h.src ext) t init hp hl _ (by rw [e]; rfl)
  · rw [run_x86 ext rfl (by decide) (show funs _ = some f_tommy_hash_u64 from rfl)]
    exact exec_hash64 ext (h.srcX86 ext) t init hp hl _ (by rw [e]; rfl)

/-- **C77** the text of `tommy_strhash_u32` computes the specified hash of the string `l`. The bytes `r` after the
    terminator can be anything, but the group of 4 bytes with the terminator can be read (C44). -/
theorem C77_strhash (t : CTy) (init : BitVec 64) (r : List Byte) (hp : p < 2 ^ sizeBit) (hz : ∀ b ∈ l, b ≠ 0) (hr : 4 ≤ l.length % 4 + 1 + r.length)
    (h : KeyAt w p (l ++ 0 :: r)) :
    run ext "tommy_strhash_u32" [⟨.u64, init.toNat⟩, ⟨.ptr t, p⟩] w = some (⟨.u32, (Lookup3.hashstr (init.setWidth 32) l).toNat⟩, w) ∧
    runX86 ext "tommy_strhash_u32" [⟨.u64, init.toNat⟩, ⟨.ptr t, p⟩] w = some (⟨.u32, (Lookup3.hashstr (init.setWidth 32) l).toNat⟩, w) := by
  have hs : ZString (fun i => (l ++ 0 :: r)[i]?) l := by
    refine ⟨fun i hi => ?_, ?_, hz⟩
    · simp only [List.getElem?_append_left hi, List.getElem?_eq_getElem hi]
    · simp
  have e := C43_strhash init l _ hs (fun i hi => by
    have : i < (l ++ 0 :: r).length := by
      simp only [List.length_append, List.length_cons]
      omega
    simp only [List.getElem?_eq_getElem this, Option.isSome_some])
  constructor
  · rw [run_fun rfl (show funs _ = some f_tommy_strhash_u32 from rfl)]
    exact exec_strhash ext (zero_run ext) (h.src ext) t init hp _ (by rw [e]; rfl)
  · rw [run_x86 ext rfl (by decide) (show funs _ = some f_tommy_strhash_u32 from rfl)]
    exact exec_strhash ext (zero_x86 ext) (h.srcX86 ext) t init hp _ (by rw [e]; rfl)

/-- **C77** the texts of `tommy_inthash_u32` and of `tommy_inthash_u64` compute a bijection. -/
theorem C77_inthash :
    (∃ f : BitVec 32 → BitVec 32, Function.Bijective f ∧ ∀ (x : BitVec 32) w, run ext "tommy_inthash_u32" [⟨.u32, x.toNat⟩] w = some (⟨.u32, (f x).toNat⟩, w)) ∧
    ∃ f : BitVec 64 → BitVec 64, Function.Bijective f ∧ ∀ (x : BitVec 64) w, run ext "tommy_inthash_u64" [⟨.u64, x.toNat⟩] w = some (⟨.u64, (f x).toNat⟩, w) :=
  ⟨⟨_, C40_inthash_u32, fun x w => by rw [run_inthash32]; rfl⟩, ⟨_, C40_inthash_u64, fun x w => by rw [run_inthash64]; rfl⟩⟩

/-- **C77** the text of `tommy_ilog2_u32` and of `tommy_ilog2_u64`. -/
theorem C77_ilog2 (v : Nat) (h0 : v ≠ 0) :
    (v < 2 ^ 32 → ∃ r, (∀ w, run ext "tommy_ilog2_u32" [⟨.u32, v⟩] w = some (⟨.u32, r⟩, w)) ∧ 2 ^ r ≤ v ∧ v < 2 ^ (r + 1)) ∧
    (v < 2 ^ 64 → ∃ r, (∀ w, run ext "tommy_ilog2_u64" [⟨.u64, v⟩] w = some (⟨.u32, r⟩, w)) ∧ 2 ^ r ≤ v ∧ v < 2 ^ (r + 1)) := by
  have b := log2_bounds h0
  exact ⟨fun h => ⟨v.log2, fun w => by rw [run_ilog32 ext (conv_same _ _) h h0]; rfl, b⟩, fun h => ⟨v.log2, fun w => by rw [run_ilog64 ext (conv_same _ _) h h0]; rfl, b⟩⟩

/-- **C77** the text of `tommy_ctz_u32` and of `tommy_ctz_u64`. -/
theorem C77_ctz (v : Nat) (h0 : v ≠ 0) :
    (v < 2 ^ 32 → ∃ r, (∀ w, run ext "tommy_ctz_u32" [⟨.u32, v⟩] w = some (⟨.u32, r⟩, w)) ∧ 2 ^ r ∣ v ∧ ¬ 2 ^ (r + 1) ∣ v) ∧
    (v < 2 ^ 64 → ∃ r, (∀ w, run ext "tommy_ctz_u64" [⟨.u64, v⟩] w = some (⟨.u32, r⟩, w)) ∧ 2 ^ r ∣ v ∧ ¬ 2 ^ (r + 1) ∣ v) := by
  constructor
  · intro h
    obtain ⟨r, e, e'⟩ := run_ctz32 ext h0
    obtain ⟨r', f, d⟩ := C45_ctz_u32 v h h0
    rw [(C45_gcc_u32 v h h0).2, f] at e'
    cases e'
    exact ⟨_, fun w => by rw [e]; rfl, d⟩
  · intro h
    obtain ⟨r, e, e'⟩ := run_ctz64 ext h0
    obtain ⟨r', f, d⟩ := C45_ctz_u64 v h h0
    rw [(C45_gcc_u64 v h h0).2, f] at e'
    cases e'
    exact ⟨_, fun w => by rw [e]; rfl, d⟩

/-- **C77** the text of `tommy_roundup_pow2_u32` and of `tommy_roundup_pow2_u64`. -/
theorem C77_roundup (v : Nat) (h1 : 1 ≤ v) :
    (v ≤ 2 ^ 31 → ∃ k, (∀ w, run ext "tommy_roundup_pow2_u32" [⟨.u32, v⟩] w = some (⟨.u32, 2 ^ k⟩, w)) ∧ v ≤ 2 ^ k ∧ ∀ j, v ≤ 2 ^ j → k ≤ j) ∧
    (v ≤ 2 ^ 63 → ∃ k, (∀ w, run ext "tommy_roundup_pow2_u64" [⟨.u64, v⟩] w = some (⟨.u64, 2 ^ k⟩, w)) ∧ v ≤ 2 ^ k ∧ ∀ j, v ≤ 2 ^ j → k ≤ j) := by
  constructor
  · intro h
    obtain ⟨k, e, b⟩ := C46_roundup_u32 v h1 h
    exact ⟨k, fun w => by rw [run_roundup32 ext (conv_same _ _) (by omega), e]; rfl, b⟩
  · intro h
    obtain ⟨k, e, b⟩ := C46_roundup_u64 v h1 h
    exact ⟨k, fun w => by rw [run_roundup64 ext (conv_same _ _) (by omega), e]; rfl, b⟩

/-- **C77** the text of `tommy_haszero_u32`. -/
theorem C77_haszero (x : BitVec 32) : ∃ r, (∀ w, run ext "tommy_haszero_u32" [⟨.u32, x.toNat⟩] w = some (bool r, w)) ∧
    (r = true ↔ ∃ i, i < 4 ∧ x.toNat / 256 ^ i % 256 = 0) := by
  refine ⟨hasZeroU32 x.toNat, fun w => by rw [zero_run ext x]; rfl, ?_⟩
  have hx := x.isLt
  rw [C47_haszero _ hx]
  constructor
  · rintro (h | h | h | h)
    · exact ⟨0, by decide, by omega⟩
    · exact ⟨1, by decide, by omega⟩
    · exact ⟨2, by decide, by omega⟩
    · exact ⟨3, by decide, by omega⟩
  · rintro ⟨i, hi, h⟩
    match i, hi with
    | 0, _ => omega
    | 1, _ => omega
    | 2, _ => omega
    | 3, _ => omega

end

/-! ## Concrete cases -/

attribute [local instance] Arch.w64

/-- A memory with the bytes `l` from the address 1001, with nothing before and after. -/
def memOf (l : List Byte) : BMem where
  mem := { byte := fun x => if x < 1001 then 0 else (l[x - 1001]?.getD 0).toNat, live := fun x => if x = 1001 then some l.length else none }
  mallocs := []
  log := []

theorem inMem_memOf (l : List Byte) (h : l.length < 2 ^ 32) : KeyAt (memOf l) 1001 l where
  fits := by show _ ≤ 2 ^ 64; omega
  live _ := ⟨1001, l.length, by simp [memOf], by omega, by omega⟩
  val i hi := by simp [memOf, show ¬ 1001 + i < 1001 by omega, List.getElem?_eq_getElem hi]

/-- The test vector of lookup3, with the key at an odd address. -/
example (ext : Ext) : run ext "tommy_hash_u32" [⟨.u32, 0⟩, ⟨.ptr .void, 1001⟩, ⟨.usize, 30⟩] (memOf fourScore) = some (⟨.u32, 0x17770551⟩, memOf fourScore) := by
  have := (C77_hash_u32 (l := fourScore) ext .void 0 (show 1001 < 2 ^ 64 by decide) (by rw [show sizeBit = 64 from rfl]; decide) (inMem_memOf fourScore (by decide))).1
  have e : Lookup3.hashlittle 0 fourScore = 0x17770551#32 := by
    simp only [Lookup3.hashlittle, runFour]
    decide +kernel
  rw [e] at this
  exact this

example (ext : Ext) : runX86 ext "tommy_hash_u64" [⟨.u64, 0⟩, ⟨.ptr .void, 1001⟩, ⟨.usize, 30⟩] (memOf fourScore) = some (⟨.u64, 0xce7226e617770551⟩, memOf fourScore) := by
  have := (C77_hash_u64 (l := fourScore) ext .void 0 (show 1001 < 2 ^ 64 by decide) (by rw [show sizeBit = 64 from rfl]; decide) (inMem_memOf fourScore (by decide))).2
  have e : Lookup3.hashlittle2 0 fourScore = 0xce7226e617770551#64 := by
    simp only [Lookup3.hashlittle2, runFour]
    decide +kernel
  rw [e] at this
  exact this

/-- "ab", followed by a terminator and by one byte that is not of the string. -/
example (ext : Ext) : run ext "tommy_strhash_u32" [⟨.u64, 7⟩, ⟨.ptr .void, 1001⟩] (memOf [97, 98, 0, 255]) =
    some (⟨.u32, (Lookup3.hashstr 7 [97, 98]).toNat⟩, memOf [97, 98, 0, 255]) :=
  (C77_strhash (l := [97, 98]) ext .void 7 [255] (show 1001 < 2 ^ 64 by decide) (by decide) (by decide) (inMem_memOf [97, 98, 0, 255] (by decide))).1

end Tommy
