import Verif.Model.Bits
/-
  Model of tommyhash.h and tommyhash.c.
  The memory is seen from the pointer `key`: `mem i` is the byte at `key + i`, or `none` if it cannot be
  read. A function returns `none` if it reads a byte that cannot be read.
-/
set_option autoImplicit false
namespace Tommy

/-- The memory read by a hash function. -/
abbrev Bytes := Nat → Option (BitVec 8)

/-- A byte converted to `tommy_uint32_t`. -/
def u8to32 (b : BitVec 8) : BitVec 32 := b.setWidth 32

/-- tommyhash.c:33-43 `tommy_le_uint32_read`, the portable variant, with the four bytes read one by
    one. -/
def leRead (mem : Bytes) (p : Nat) : Option (BitVec 32) := do
  let b0 ← mem (p + 0)
  let b1 ← mem (p + 1)
  let b2 ← mem (p + 2)
  let b3 ← mem (p + 3)
  return u8to32 b0 + (u8to32 b1 <<< 8) + (u8to32 b2 <<< 16) + (u8to32 b3 <<< 24)

/-- tommyhash.c:33-43 `tommy_le_uint32_read`, the x86 variant: one load of 32 bit at an address not necessarily
    aligned. The byte at the lowest address is the least significant one. ISO C gives no meaning to the not aligned
    load; this is the one of the processor. -/
def leReadX86 (mem : Bytes) (p : Nat) : Option (BitVec 32) := do
  let b0 ← mem p
  let b1 ← mem (p + 1)
  let b2 ← mem (p + 2)
  let b3 ← mem (p + 3)
  return b3 ++ b2 ++ b1 ++ b0

/-- tommyhash.c:45-46 `tommy_rot`. -/
def rot (x : BitVec 32) (k : Nat) : BitVec 32 := (x <<< k) ||| (x >>> (32 - k))

/-- The three accumulators. -/
structure Abc where
  a : BitVec 32
  b : BitVec 32
  c : BitVec 32
deriving DecidableEq

/-- tommyhash.c:48-56 `tommy_mix`. -/
def mix (s : Abc) : Abc :=
  let ⟨a, b, c⟩ := s
  let a := a - c; let a := a ^^^ rot c 4; let c := c + b
  let b := b - a; let b := b ^^^ rot a 6; let a := a + c
  let c := c - b; let c := c ^^^ rot b 8; let b := b + a
  let a := a - c; let a := a ^^^ rot c 16; let c := c + b
  let b := b - a; let b := b ^^^ rot a 19; let a := a + c
  let c := c - b; let c := c ^^^ rot b 4; let b := b + a
  ⟨a, b, c⟩

/-- tommyhash.c:58-67 `tommy_final`. -/
def final (s : Abc) : Abc :=
  let ⟨a, b, c⟩ := s
  let c := c ^^^ b; let c := c - rot b 14
  let a := a ^^^ c; let a := a - rot c 11
  let b := b ^^^ a; let b := b - rot a 25
  let c := c ^^^ b; let c := c - rot b 16
  let a := a ^^^ c; let a := a - rot c 4
  let b := b ^^^ a; let b := b - rot a 14
  let c := c ^^^ b; let c := c - rot b 24
  ⟨a, b, c⟩

/-- tommyhash.c:76-85 and 126-135: the loop. Returns the accumulators, the remaining length and how much
    the key pointer was moved. -/
def hashLoop (mem : Bytes) (s : Abc) (keyLen off : Nat) : Option (Abc × Nat × Nat) :=
  if keyLen > 12 then do
    let x ← leRead mem (off + 0)
    let y ← leRead mem (off + 4)
    let z ← leRead mem (off + 8)
    hashLoop mem (mix ⟨s.a + x, s.b + y, s.c + z⟩) (keyLen - 12) (off + 12)
  else
    some (s, keyLen, off)
termination_by keyLen

/-- `((tommy_uint32_t)key[i]) << k` -/
def byteAt (mem : Bytes) (i k : Nat) : Option (BitVec 32) := (mem i).map (fun b => u8to32 b <<< k)

/-- tommyhash.c:87-111 and 137-161: the cases of the switch from 1, each one falls through to the next up
    to a `break`. -/
def hashSwitch (mem : Bytes) (s : Abc) (key : Nat) : Nat → Option Abc
  | 12 => do
    let z ← leRead mem (key + 8)
    let y ← leRead mem (key + 4)
    let x ← leRead mem (key + 0)
    return ⟨s.a + x, s.b + y, s.c + z⟩
  | 11 => do let v ← byteAt mem (key + 10) 16; hashSwitch mem { s with c := s.c + v } key 10
  | 10 => do let v ← byteAt mem (key + 9) 8; hashSwitch mem { s with c := s.c + v } key 9
  | 9 => do let v ← byteAt mem (key + 8) 0; hashSwitch mem { s with c := s.c + v } key 8
  | 8 => do
    let y ← leRead mem (key + 4)
    let x ← leRead mem (key + 0)
    return { s with a := s.a + x, b := s.b + y }
  | 7 => do let v ← byteAt mem (key + 6) 16; hashSwitch mem { s with b := s.b + v } key 6
  | 6 => do let v ← byteAt mem (key + 5) 8; hashSwitch mem { s with b := s.b + v } key 5
  | 5 => do let v ← byteAt mem (key + 4) 0; hashSwitch mem { s with b := s.b + v } key 4
  | 4 => do
    let x ← leRead mem (key + 0)
    return { s with a := s.a + x }
  | 3 => do let v ← byteAt mem (key + 2) 16; hashSwitch mem { s with a := s.a + v } key 2
  | 2 => do let v ← byteAt mem (key + 1) 8; hashSwitch mem { s with a := s.a + v } key 1
  | 1 => do
    let v ← byteAt mem (key + 0) 0
    return { s with a := s.a + v }
  | _ => some s

/-- tommyhash.c:69-116 `tommy_hash_u32`. -/
def hashU32 (initVal : BitVec 32) (mem : Bytes) (keyLen : Nat) : Option (BitVec 32) := do
  let v := 0xdeadbeef#32 + BitVec.ofNat 32 keyLen + initVal
  let (s, keyLen, key) ← hashLoop mem ⟨v, v, v⟩ keyLen 0
  if keyLen = 0 then
    return s.c
  let s ← hashSwitch mem s key keyLen
  return (final s).c

/-- The result of `tommy_hash_u64`: `c + ((tommy_uint64_t)b << 32)`. -/
def res64 (s : Abc) : BitVec 64 := s.c.setWidth 64 + (s.b.setWidth 64 <<< 32)

/-- tommyhash.c:118-166 `tommy_hash_u64`. -/
def hashU64 (initVal : BitVec 64) (mem : Bytes) (keyLen : Nat) : Option (BitVec 64) := do
  let v := ((0xdeadbeef#32 + BitVec.ofNat 32 keyLen).setWidth 64 + (initVal &&& 0xffffffff#64)).setWidth 32
  let c := (v.setWidth 64 + (initVal >>> 32)).setWidth 32
  let (s, keyLen, key) ← hashLoop mem ⟨v, v, c⟩ keyLen 0
  if keyLen = 0 then
    return res64 s
  let s ← hashSwitch mem s key keyLen
  return res64 (final s)

/-- tommyhash.c:181-188 (the same at 198-205 and 215-222): the bytes of the last word before the terminator. -/
def strTail (v : BitVec 32) (x : BitVec 32) : BitVec 32 :=
  if v &&& 0xff ≠ 0 then
    let x := x + (v &&& 0xff)
    if v &&& 0xff00 ≠ 0 then
      let x := x + (v &&& 0xff00)
      if v &&& 0xff0000 ≠ 0 then x + (v &&& 0xff0000) else x
    else x
  else x

/-- tommyhash.c:177-232: the loop of `tommy_strhash_u32`. -/
def strLoop (mem : Bytes) (s : Abc) (key : Nat) : Option Abc := do
  let v ← leRead mem key
  if hasZeroU32 v.toNat then
    return { s with a := strTail v s.a }
  let s := { s with a := s.a + v }
  let v ← leRead mem (key + 4)
  if hasZeroU32 v.toNat then
    return { s with b := strTail v s.b }
  let s := { s with b := s.b + v }
  let v ← leRead mem (key + 8)
  if hasZeroU32 v.toNat then
    return { s with c := strTail v s.c }
  let s := { s with c := s.c + v }
  strLoop mem (mix s) (key + 12)
partial_fixpoint

/-- tommyhash.c:168-240 `tommy_strhash_u32`. -/
def strhashU32 (initVal : BitVec 64) (mem : Bytes) : Option (BitVec 32) := do
  let v := (0xdeadbeef#64 + initVal).setWidth 32
  let s ← strLoop mem ⟨v, v, v⟩ 0
  return (final s).c

/-- tommyhash.h:103-114 `tommy_inthash_u32`. -/
def inthashU32 (key : BitVec 32) : BitVec 32 :=
  let key := key - (key <<< 6)
  let key := key ^^^ (key >>> 17)
  let key := key - (key <<< 9)
  let key := key ^^^ (key <<< 4)
  let key := key - (key <<< 3)
  let key := key ^^^ (key <<< 10)
  let key := key ^^^ (key >>> 15)
  key

/-- tommy.h:333 the documented macro `hash`, `tommy_inthash_u32(v & ~0xF) + (v & 0xF)`. -/
def nearHash (v : BitVec 32) : BitVec 32 := inthashU32 (v &&& ~~~0xF#32) + (v &&& 0xF#32)

/-- tommyhash.h:121-132 `tommy_inthash_u64`. -/
def inthashU64 (key : BitVec 64) : BitVec 64 :=
  let key := ~~~key + (key <<< 21)
  let key := key ^^^ (key >>> 24)
  let key := key + (key <<< 3) + (key <<< 8)
  let key := key ^^^ (key >>> 14)
  let key := key + (key <<< 2) + (key <<< 4)
  let key := key ^^^ (key >>> 28)
  let key := key + (key <<< 31)
  key

end Tommy
