import Verif.Model.Arch
/-
  Model of the bit hacks of tommytypes.h:311-516, in the portable, GCC and MSVC variants.
  An `uint32_t`/`uint64_t` is a `Nat` less than 2^32/2^64; the arithmetic operations are
  reduced modulo 2^32/2^64.
-/
set_option autoImplicit false
namespace Tommy

/-- The DE BRUIJN table of tommytypes.h:368-371. -/
def deBruijnIlog2 : List Nat := [
  0, 9, 1, 10, 13, 21, 2, 29, 11, 14, 16, 18, 22, 25, 3, 30,
  8, 12, 20, 28, 15, 17, 24, 7, 19, 27, 23, 6, 26, 5, 4, 31]

/-- tommytypes.h:348-381 `tommy_ilog2_u32`, portable branch. `none` is an out of bounds access to
    the table. -/
def ilog2U32 (value : Nat) : Option Nat :=
  let value := value ||| (value >>> 1)
  let value := value ||| (value >>> 2)
  let value := value ||| (value >>> 4)
  let value := value ||| (value >>> 8)
  let value := value ||| (value >>> 16)
  deBruijnIlog2[((value * 0x07C4ACDD) % 2 ^ 32) >>> 27]?

/-- tommytypes.h:387-403 `tommy_ilog2_u64`, portable branch. -/
def ilog2U64 (value : Nat) : Option Nat :=
  let l := value &&& 0xFFFFFFFF
  let h := (value >>> 32) % 2 ^ 32
  if h ≠ 0 then (ilog2U32 h).map (· + 32) else ilog2U32 l

/-- The DE BRUIJN table of tommytypes.h:425-428. -/
def deBruijnCtz : List Nat := [
  0, 1, 28, 2, 29, 14, 24, 3, 30, 22, 20, 15, 25, 17, 4, 8,
  31, 27, 13, 23, 21, 19, 16, 7, 26, 12, 18, 6, 11, 5, 10, 9]

/-- tommytypes.h:414-432 `tommy_ctz_u32`, portable branch. -/
def ctzU32 (value : Nat) : Option Nat :=
  let neg := (2 ^ 32 - value) % 2 ^ 32
  deBruijnCtz[(((value &&& neg) * 0x077CB531) % 2 ^ 32) >>> 27]?

/-- tommytypes.h:438-454 `tommy_ctz_u64`, portable branch. -/
def ctzU64 (value : Nat) : Option Nat :=
  let l := value &&& 0xFFFFFFFF
  let h := (value >>> 32) % 2 ^ 32
  if l ≠ 0 then ctzU32 l else (ctzU32 h).map (· + 32)

/-- The meaning that the documentation of GCC gives to `__builtin_clz` and `__builtin_clzll` (`w` is 32 or 64):
    the number of leading 0 bits, undefined (`none`) for 0. -/
def builtinClz (w value : Nat) : Option Nat :=
  if value = 0 then none else some ((List.range w).reverse.takeWhile fun i => !value.testBit i).length

/-- The meaning that the documentation of GCC gives to `__builtin_ctz` and `__builtin_ctzll`: the number of
    trailing 0 bits, undefined for 0. -/
def builtinCtz (w value : Nat) : Option Nat :=
  if value = 0 then none else some ((List.range w).takeWhile fun i => !value.testBit i).length

/-- tommytypes.h:348-381 `tommy_ilog2_u32`, GCC branch. -/
def ilog2U32Gcc (value : Nat) : Option Nat := (builtinClz 32 value).map (· ^^^ 31)

/-- tommytypes.h:387-403 `tommy_ilog2_u64`, GCC branch. -/
def ilog2U64Gcc (value : Nat) : Option Nat := (builtinClz 64 value).map (· ^^^ 63)

/-- tommytypes.h:414-432 `tommy_ctz_u32`, GCC branch. -/
def ctzU32Gcc (value : Nat) : Option Nat := builtinCtz 32 value

/-- tommytypes.h:438-454 `tommy_ctz_u64`, GCC branch. -/
def ctzU64Gcc (value : Nat) : Option Nat := builtinCtz 64 value

/-- The meaning that the documentation of Microsoft gives to `_BitScanReverse` and `_BitScanReverse64`: searches
    the mask from the most significant bit for a bit set, and stores its position; if the mask is 0 nothing is
    stored (`none`: the code returns the variable not initialized). -/
def bitScanReverse (w mask : Nat) : Option Nat := (List.range w).reverse.find? fun i => mask.testBit i

/-- The same for `_BitScanForward` and `_BitScanForward64`: from the least significant bit. -/
def bitScanForward (w mask : Nat) : Option Nat := (List.range w).find? fun i => mask.testBit i

/-- tommytypes.h:348-381 `tommy_ilog2_u32`, MSVC branch. -/
def ilog2U32Msvc (value : Nat) : Option Nat := bitScanReverse 32 value

/-- tommytypes.h:387-403 `tommy_ilog2_u64`, MSVC branch. -/
def ilog2U64Msvc (value : Nat) : Option Nat := bitScanReverse 64 value

/-- tommytypes.h:414-432 `tommy_ctz_u32`, MSVC branch. -/
def ctzU32Msvc (value : Nat) : Option Nat := bitScanForward 32 value

/-- tommytypes.h:438-454 `tommy_ctz_u64`, MSVC branch. -/
def ctzU64Msvc (value : Nat) : Option Nat := bitScanForward 64 value

/-- The three variants of the bit scans: tommytypes.h:350 `_MSC_VER`, 354 `__GNUC__`, 365 otherwise. -/
inductive Compiler
  | msvc
  | gnuc
  | other
deriving DecidableEq

/-- tommytypes.h:507-515 `tommy_ilog2`, in every build. -/
def ilog2V [a : Arch] (c : Compiler) (value : Nat) : Option Nat := match a, c with
  | .w64, .msvc => ilog2U64Msvc value
  | .w64, .gnuc => ilog2U64Gcc value
  | .w64, .other => ilog2U64 value
  | .w32, .msvc => ilog2U32Msvc value
  | .w32, .gnuc => ilog2U32Gcc value
  | .w32, .other => ilog2U32 value

/-- tommytypes.h:507-515 `tommy_ctz`, in every build. -/
def ctzV [a : Arch] (c : Compiler) (value : Nat) : Option Nat := match a, c with
  | .w64, .msvc => ctzU64Msvc value
  | .w64, .gnuc => ctzU64Gcc value
  | .w64, .other => ctzU64 value
  | .w32, .msvc => ctzU32Msvc value
  | .w32, .gnuc => ctzU32Gcc value
  | .w32, .other => ctzU32 value

/-- tommytypes.h:462-476 `tommy_roundup_pow2_u32`. -/
def roundupPow2U32 (value : Nat) : Nat :=
  let value := (value + (2 ^ 32 - 1)) % 2 ^ 32
  let value := value ||| (value >>> 1)
  let value := value ||| (value >>> 2)
  let value := value ||| (value >>> 4)
  let value := value ||| (value >>> 8)
  let value := value ||| (value >>> 16)
  (value + 1) % 2 ^ 32

/-- tommytypes.h:481-493 `tommy_roundup_pow2_u64`. -/
def roundupPow2U64 (value : Nat) : Nat :=
  let value := (value + (2 ^ 64 - 1)) % 2 ^ 64
  let value := value ||| (value >>> 1)
  let value := value ||| (value >>> 2)
  let value := value ||| (value >>> 4)
  let value := value ||| (value >>> 8)
  let value := value ||| (value >>> 16)
  let value := value ||| (value >>> 32)
  (value + 1) % 2 ^ 64

/-- tommytypes.h:499-502 `tommy_haszero_u32`. -/
def hasZeroU32 (value : Nat) : Bool :=
  ((value + (2 ^ 32 - 0x01010101)) % 2 ^ 32) &&& (2 ^ 32 - 1 - value) &&& 0x80808080 != 0

/-- tommytypes.h:507-515 `tommy_roundup_pow2`. -/
def roundupPow2 [a : Arch] (value : Nat) : Nat := match a with
  | .w32 => roundupPow2U32 value
  | .w64 => roundupPow2U64 value

end Tommy
