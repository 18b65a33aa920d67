import Verif.C.Sem
/-
  Written by tools/c2lean.py from tommytypes.h. Not to be changed.
-/
set_option autoImplicit false
namespace Tommy.C.Src

variable [a : Arch]

/-- tommytypes.h:195-221 -/
def s_tommy_node_struct : List (String × CTy) := [
  ("next", .ptr (.struct "tommy_node_struct")),
  ("prev", .ptr (.struct "tommy_node_struct")),
  ("data", .ptr .void),
  ("index", .usize)]

/-- tommytypes.h: the macro `tommy_ctz` in the two builds. -/
def m_tommy_ctz : String := match a with
  | .w32 => "tommy_ctz_u32"
  | .w64 => "tommy_ctz_u64"

/-- tommytypes.h: the macro `tommy_ilog2` in the two builds. -/
def m_tommy_ilog2 : String := match a with
  | .w32 => "tommy_ilog2_u32"
  | .w64 => "tommy_ilog2_u64"

/-- tommytypes.h: the macro `tommy_roundup_pow2` in the two builds. -/
def m_tommy_roundup_pow2 : String := match a with
  | .w32 => "tommy_roundup_pow2_u32"
  | .w64 => "tommy_roundup_pow2_u64"

/-- tommytypes.h:348-381
```
    tommy_inline tommy_uint_t tommy_ilog2_u32(tommy_uint32_t value)
    {
    #if defined(_MSC_VER)
      unsigned long count;
      _BitScanReverse(&count, value);
      return count;
    #elif defined(__GNUC__)
      return __builtin_clz(value) ^ 31;
    #else
      static unsigned char TOMMY_DE_BRUIJN_INDEX_ILOG2[32] = {
        0, 9, 1, 10, 13, 21, 2, 29, 11, 14, 16, 18, 22, 25, 3, 30,
        8, 12, 20, 28, 15, 17, 24, 7, 19, 27, 23, 6, 26, 5, 4, 31
      };
      value |= value >> 1;
      value |= value >> 2;
      value |= value >> 4;
      value |= value >> 8;
      value |= value >> 16;
      return TOMMY_DE_BRUIJN_INDEX_ILOG2[(tommy_uint32_t)(value * 0x07C4ACDDU) >> 27];
    #endif
    }
```
-/
def f_tommy_ilog2_u32 : Fun :=
  { ret := .u32
    params := [("value", .u32)]
    body := (.list [
      .retE (.bin .xor (.call "__builtin_clz" (.cons (.var "value") .nil)) (.num 31))]) }

/-- tommytypes.h:387-403
```
    tommy_inline tommy_uint_t tommy_ilog2_u64(tommy_uint64_t value)
    {
    #if defined(_MSC_VER)
      unsigned long count;
      _BitScanReverse64(&count, value);
      return count;
    #elif defined(__GNUC__)
      return __builtin_clzll(value) ^ 63;
    #else
      uint32_t l = value & 0xFFFFFFFFU;
      uint32_t h = value >> 32;
      if (h)
        return tommy_ilog2_u32(h) + 32;
      else
        return tommy_ilog2_u32(l);
    #endif
    }
```
-/
def f_tommy_ilog2_u64 : Fun :=
  { ret := .u32
    params := [("value", .u64)]
    body := (.list [
      .retE (.bin .xor (.call "__builtin_clzll" (.cons (.var "value") .nil)) (.num 63))]) }

/-- tommytypes.h:414-432
```
    tommy_inline tommy_uint_t tommy_ctz_u32(tommy_uint32_t value)
    {
    #if defined(_MSC_VER)
      unsigned long count;
      _BitScanForward(&count, value);
      return count;
    #elif defined(__GNUC__)
      return __builtin_ctz(value);
    #else
      static const unsigned char TOMMY_DE_BRUIJN_INDEX_CTZ[32] = {
        0, 1, 28, 2, 29, 14, 24, 3, 30, 22, 20, 15, 25, 17, 4, 8,
        31, 27, 13, 23, 21, 19, 16, 7, 26, 12, 18, 6, 11, 5, 10, 9
      };
      return TOMMY_DE_BRUIJN_INDEX_CTZ[(tommy_uint32_t)(((value & - value) * 0x077CB531U)) >> 27];
    #endif
    }
```
-/
def f_tommy_ctz_u32 : Fun :=
  { ret := .u32
    params := [("value", .u32)]
    body := (.list [
      .retE (.call "__builtin_ctz" (.cons (.var "value") .nil))]) }

/-- tommytypes.h:438-454
```
    tommy_inline tommy_uint_t tommy_ctz_u64(tommy_uint64_t value)
    {
    #if defined(_MSC_VER)
      unsigned long count;
      _BitScanForward64(&count, value);
      return count;
    #elif defined(__GNUC__)
      return __builtin_ctzll(value);
    #else
      uint32_t l = value & 0xFFFFFFFFU;
      uint32_t h = value >> 32;
      if (l)
        return tommy_ctz_u32(l);
      else
        return tommy_ctz_u32(h) + 32;
    #endif
    }
```
-/
def f_tommy_ctz_u64 : Fun :=
  { ret := .u32
    params := [("value", .u64)]
    body := (.list [
      .retE (.call "__builtin_ctzll" (.cons (.var "value") .nil))]) }

/-- tommytypes.h:462-476
```
    tommy_inline tommy_uint32_t tommy_roundup_pow2_u32(tommy_uint32_t value)
    {
      --value;
      value |= value >> 1;
      value |= value >> 2;
      value |= value >> 4;
      value |= value >> 8;
      value |= value >> 16;
      ++value;
      return value;
    }
```
-/
def f_tommy_roundup_pow2_u32 : Fun :=
  { ret := .u32
    params := [("value", .u32)]
    body := (.list [
      .expr (.assignOp .sub (.var "value") (.num 1)),
      .expr (.assignOp .or (.var "value") (.bin .shr (.var "value") (.num 1))),
      .expr (.assignOp .or (.var "value") (.bin .shr (.var "value") (.num 2))),
      .expr (.assignOp .or (.var "value") (.bin .shr (.var "value") (.num 4))),
      .expr (.assignOp .or (.var "value") (.bin .shr (.var "value") (.num 8))),
      .expr (.assignOp .or (.var "value") (.bin .shr (.var "value") (.num 16))),
      .expr (.assignOp .add (.var "value") (.num 1)),
      .retE (.var "value")]) }

/-- tommytypes.h:481-493
```
    tommy_inline tommy_uint64_t tommy_roundup_pow2_u64(tommy_uint64_t value)
    {
      --value;
      value |= value >> 1;
      value |= value >> 2;
      value |= value >> 4;
      value |= value >> 8;
      value |= value >> 16;
      value |= value >> 32;
      ++value;
      return value;
    }
```
-/
def f_tommy_roundup_pow2_u64 : Fun :=
  { ret := .u64
    params := [("value", .u64)]
    body := (.list [
      .expr (.assignOp .sub (.var "value") (.num 1)),
      .expr (.assignOp .or (.var "value") (.bin .shr (.var "value") (.num 1))),
      .expr (.assignOp .or (.var "value") (.bin .shr (.var "value") (.num 2))),
      .expr (.assignOp .or (.var "value") (.bin .shr (.var "value") (.num 4))),
      .expr (.assignOp .or (.var "value") (.bin .shr (.var "value") (.num 8))),
      .expr (.assignOp .or (.var "value") (.bin .shr (.var "value") (.num 16))),
      .expr (.assignOp .or (.var "value") (.bin .shr (.var "value") (.num 32))),
      .expr (.assignOp .add (.var "value") (.num 1)),
      .retE (.var "value")]) }

/-- tommytypes.h:499-502
```
    tommy_inline int tommy_haszero_u32(tommy_uint32_t value)
    {
      return ((value - 0x01010101) & ~value & 0x80808080) != 0;
    }
```
-/
def f_tommy_haszero_u32 : Fun :=
  { ret := .s32
    params := [("value", .u32)]
    body := (.list [
      .retE (.bin .ne (.bin .and (.bin .and (.bin .sub (.var "value") (.num 16843009)) (.bnot (.var "value"))) (.lit .u32 2155905152)) (.num 0))]) }

/-- The functions of the file. -/
def funsTypes : List (String × Fun) := [
  ("tommy_ilog2_u32", f_tommy_ilog2_u32),
  ("tommy_ilog2_u64", f_tommy_ilog2_u64),
  ("tommy_ctz_u32", f_tommy_ctz_u32),
  ("tommy_ctz_u64", f_tommy_ctz_u64),
  ("tommy_roundup_pow2_u32", f_tommy_roundup_pow2_u32),
  ("tommy_roundup_pow2_u64", f_tommy_roundup_pow2_u64),
  ("tommy_haszero_u32", f_tommy_haszero_u32)]

/-- The structs of the file. -/
def structsTypes : List (String × List (String × CTy)) := [
  ("tommy_node_struct", s_tommy_node_struct)]

end Tommy.C.Src
