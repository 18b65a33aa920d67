import Verif.C.SrcTypes
/-
  Written by tools/c2lean.py from tommyhash.h, tommyhash.c. Not to be changed.
-/
set_option autoImplicit false
namespace Tommy.C.Src

variable [a : Arch]

/-- tommyhash.h:103-114
```
    tommy_inline tommy_uint32_t tommy_inthash_u32(tommy_uint32_t key)
    {
      key -= key << 6;
      key ^= key >> 17;
      key -= key << 9;
      key ^= key << 4;
      key -= key << 3;
      key ^= key << 10;
      key ^= key >> 15;
      return key;
    }
```
-/
def f_tommy_inthash_u32 : Fun :=
  { ret := .u32
    params := [("key", .u32)]
    body := (.list [
      .expr (.assignOp .sub (.var "key") (.bin .shl (.var "key") (.num 6))),
      .expr (.assignOp .xor (.var "key") (.bin .shr (.var "key") (.num 17))),
      .expr (.assignOp .sub (.var "key") (.bin .shl (.var "key") (.num 9))),
      .expr (.assignOp .xor (.var "key") (.bin .shl (.var "key") (.num 4))),
      .expr (.assignOp .sub (.var "key") (.bin .shl (.var "key") (.num 3))),
      .expr (.assignOp .xor (.var "key") (.bin .shl (.var "key") (.num 10))),
      .expr (.assignOp .xor (.var "key") (.bin .shr (.var "key") (.num 15))),
      .retE (.var "key")]) }

/-- tommyhash.h:121-132
```
    tommy_inline tommy_uint64_t tommy_inthash_u64(tommy_uint64_t key)
    {
      key = ~key + (key << 21);
      key = key ^ (key >> 24);
      key = key + (key << 3) + (key << 8);
      key = key ^ (key >> 14);
      key = key + (key << 2) + (key << 4);
      key = key ^ (key >> 28);
      key = key + (key << 31);
      return key;
    }
```
-/
def f_tommy_inthash_u64 : Fun :=
  { ret := .u64
    params := [("key", .u64)]
    body := (.list [
      .expr (.assign (.var "key") (.bin .add (.bnot (.var "key")) (.bin .shl (.var "key") (.num 21)))),
      .expr (.assign (.var "key") (.bin .xor (.var "key") (.bin .shr (.var "key") (.num 24)))),
      .expr (.assign (.var "key") (.bin .add (.bin .add (.var "key") (.bin .shl (.var "key") (.num 3))) (.bin .shl (.var "key") (.num 8)))),
      .expr (.assign (.var "key") (.bin .xor (.var "key") (.bin .shr (.var "key") (.num 14)))),
      .expr (.assign (.var "key") (.bin .add (.bin .add (.var "key") (.bin .shl (.var "key") (.num 2))) (.bin .shl (.var "key") (.num 4)))),
      .expr (.assign (.var "key") (.bin .xor (.var "key") (.bin .shr (.var "key") (.num 28)))),
      .expr (.assign (.var "key") (.bin .add (.var "key") (.bin .shl (.var "key") (.num 31)))),
      .retE (.var "key")]) }

/-- tommyhash.c:33-43
```
    tommy_inline tommy_uint32_t tommy_le_uint32_read(const void* ptr)
    {
    #if defined(__i386__) || defined(_M_IX86) || defined(_X86_) || defined(__x86_64__) || defined(_M_X64)
      return *(const tommy_uint32_t*)ptr;
    #else
      const unsigned char* ptr8 = tommy_cast(const unsigned char*, ptr);
      return ptr8[0] + ((tommy_uint32_t)ptr8[1] << 8) + ((tommy_uint32_t)ptr8[2] << 16) + ((tommy_uint32_t)ptr8[3] << 24);
    #endif
    }
```
-/
def f_tommy_le_uint32_read : Fun :=
  { ret := .u32
    params := [("ptr", .ptr .void)]
    body := (.list [
      .declInit (.ptr .u8) "ptr8" (.var "ptr"),
      .retE (.bin .add (.bin .add (.bin .add (.index (.var "ptr8") (.num 0)) (.bin .shl (.cast .u32 (.index (.var "ptr8") (.num 1))) (.num 8))) (.bin .shl (.cast .u32 (.index (.var "ptr8") (.num 2))) (.num 16))) (.bin .shl (.cast .u32 (.index (.var "ptr8") (.num 3))) (.num 24)))]) }

/-- The same in x86 and x86_64. -/
def f_tommy_le_uint32_read_x86 : Fun :=
  { ret := .u32
    params := [("ptr", .ptr .void)]
    body := (.list [
      .retE (.deref (.cast (.ptr .u32) (.var "ptr")))]) }

/-- tommyhash.c:69-116
```
    tommy_uint32_t tommy_hash_u32(tommy_uint32_t init_val, const void* void_key, tommy_size_t key_len)
    {
      const unsigned char* key = tommy_cast(const unsigned char*, void_key);
      tommy_uint32_t a, b, c;
      a = b = c = 0xdeadbeef + ((tommy_uint32_t)key_len) + init_val;
      while (key_len > 12) {
        a += tommy_le_uint32_read(key + 0);
        b += tommy_le_uint32_read(key + 4);
        c += tommy_le_uint32_read(key + 8);
        tommy_mix(a, b, c);
        key_len -= 12;
        key += 12;
      }
      switch (key_len) {
      case 0 :
        return c;
      case 12 :
        c += tommy_le_uint32_read(key + 8);
        b += tommy_le_uint32_read(key + 4);
        a += tommy_le_uint32_read(key + 0);
        break;
      case 11 : c += ((tommy_uint32_t)key[10]) << 16;
      case 10 : c += ((tommy_uint32_t)key[9]) << 8;
      case 9 : c += key[8];
      case 8 :
        b += tommy_le_uint32_read(key + 4);
        a += tommy_le_uint32_read(key + 0);
        break;
      case 7 : b += ((tommy_uint32_t)key[6]) << 16;
      case 6 : b += ((tommy_uint32_t)key[5]) << 8;
      case 5 : b += key[4];
      case 4 :
        a += tommy_le_uint32_read(key + 0);
        break;
      case 3 : a += ((tommy_uint32_t)key[2]) << 16;
      case 2 : a += ((tommy_uint32_t)key[1]) << 8;
      case 1 : a += key[0];
      }
      tommy_final(a, b, c);
      return c;
    }
```
-/
def f_tommy_hash_u32 : Fun :=
  { ret := .u32
    params := [("init_val", .u32), ("void_key", .ptr .void), ("key_len", .usize)]
    body := (.list [
      .declInit (.ptr .u8) "key" (.var "void_key"),
      .decl .u32 "a",
      .decl .u32 "b",
      .decl .u32 "c",
      .expr (.assign (.var "a") (.assign (.var "b") (.assign (.var "c") (.bin .add (.bin .add (.lit .u32 3735928559) (.cast .u32 (.var "key_len"))) (.var "init_val"))))),
      .while (.bin .gt (.var "key_len") (.num 12))
        (.block (.list [
          .expr (.assignOp .add (.var "a") (.call "tommy_le_uint32_read" (.cons (.addr (.index (.var "key") (.num 0))) .nil))),
          .expr (.assignOp .add (.var "b") (.call "tommy_le_uint32_read" (.cons (.addr (.index (.var "key") (.num 4))) .nil))),
          .expr (.assignOp .add (.var "c") (.call "tommy_le_uint32_read" (.cons (.addr (.index (.var "key") (.num 8))) .nil))),
          .doWhile
            (.block (.list [
              .expr (.assignOp .sub (.var "a") (.var "c")),
              .expr (.assignOp .xor (.var "a") (.bin .or (.bin .shl (.var "c") (.num 4)) (.bin .shr (.var "c") (.bin .sub (.num 32) (.num 4))))),
              .expr (.assignOp .add (.var "c") (.var "b")),
              .expr (.assignOp .sub (.var "b") (.var "a")),
              .expr (.assignOp .xor (.var "b") (.bin .or (.bin .shl (.var "a") (.num 6)) (.bin .shr (.var "a") (.bin .sub (.num 32) (.num 6))))),
              .expr (.assignOp .add (.var "a") (.var "c")),
              .expr (.assignOp .sub (.var "c") (.var "b")),
              .expr (.assignOp .xor (.var "c") (.bin .or (.bin .shl (.var "b") (.num 8)) (.bin .shr (.var "b") (.bin .sub (.num 32) (.num 8))))),
              .expr (.assignOp .add (.var "b") (.var "a")),
              .expr (.assignOp .sub (.var "a") (.var "c")),
              .expr (.assignOp .xor (.var "a") (.bin .or (.bin .shl (.var "c") (.num 16)) (.bin .shr (.var "c") (.bin .sub (.num 32) (.num 16))))),
              .expr (.assignOp .add (.var "c") (.var "b")),
              .expr (.assignOp .sub (.var "b") (.var "a")),
              .expr (.assignOp .xor (.var "b") (.bin .or (.bin .shl (.var "a") (.num 19)) (.bin .shr (.var "a") (.bin .sub (.num 32) (.num 19))))),
              .expr (.assignOp .add (.var "a") (.var "c")),
              .expr (.assignOp .sub (.var "c") (.var "b")),
              .expr (.assignOp .xor (.var "c") (.bin .or (.bin .shl (.var "b") (.num 4)) (.bin .shr (.var "b") (.bin .sub (.num 32) (.num 4))))),
              .expr (.assignOp .add (.var "b") (.var "a"))]))
            (.num 0),
          .expr (.assignOp .sub (.var "key_len") (.num 12)),
          .expr (.assign (.var "key") (.addr (.index (.var "key") (.num 12))))])),
      .switch (.var "key_len") (.list [
        .case 0 (.list [
          .retE (.var "c")]),
        .case 12 (.list [
          .expr (.assignOp .add (.var "c") (.call "tommy_le_uint32_read" (.cons (.addr (.index (.var "key") (.num 8))) .nil))),
          .expr (.assignOp .add (.var "b") (.call "tommy_le_uint32_read" (.cons (.addr (.index (.var "key") (.num 4))) .nil))),
          .expr (.assignOp .add (.var "a") (.call "tommy_le_uint32_read" (.cons (.addr (.index (.var "key") (.num 0))) .nil))),
          .break]),
        .case 11 (.list [
          .expr (.assignOp .add (.var "c") (.bin .shl (.cast .u32 (.index (.var "key") (.num 10))) (.num 16)))]),
        .case 10 (.list [
          .expr (.assignOp .add (.var "c") (.bin .shl (.cast .u32 (.index (.var "key") (.num 9))) (.num 8)))]),
        .case 9 (.list [
          .expr (.assignOp .add (.var "c") (.index (.var "key") (.num 8)))]),
        .case 8 (.list [
          .expr (.assignOp .add (.var "b") (.call "tommy_le_uint32_read" (.cons (.addr (.index (.var "key") (.num 4))) .nil))),
          .expr (.assignOp .add (.var "a") (.call "tommy_le_uint32_read" (.cons (.addr (.index (.var "key") (.num 0))) .nil))),
          .break]),
        .case 7 (.list [
          .expr (.assignOp .add (.var "b") (.bin .shl (.cast .u32 (.index (.var "key") (.num 6))) (.num 16)))]),
        .case 6 (.list [
          .expr (.assignOp .add (.var "b") (.bin .shl (.cast .u32 (.index (.var "key") (.num 5))) (.num 8)))]),
        .case 5 (.list [
          .expr (.assignOp .add (.var "b") (.index (.var "key") (.num 4)))]),
        .case 4 (.list [
          .expr (.assignOp .add (.var "a") (.call "tommy_le_uint32_read" (.cons (.addr (.index (.var "key") (.num 0))) .nil))),
          .break]),
        .case 3 (.list [
          .expr (.assignOp .add (.var "a") (.bin .shl (.cast .u32 (.index (.var "key") (.num 2))) (.num 16)))]),
        .case 2 (.list [
          .expr (.assignOp .add (.var "a") (.bin .shl (.cast .u32 (.index (.var "key") (.num 1))) (.num 8)))]),
        .case 1 (.list [
          .expr (.assignOp .add (.var "a") (.index (.var "key") (.num 0)))])]),
      .doWhile
        (.block (.list [
          .expr (.assignOp .xor (.var "c") (.var "b")),
          .expr (.assignOp .sub (.var "c") (.bin .or (.bin .shl (.var "b") (.num 14)) (.bin .shr (.var "b") (.bin .sub (.num 32) (.num 14))))),
          .expr (.assignOp .xor (.var "a") (.var "c")),
          .expr (.assignOp .sub (.var "a") (.bin .or (.bin .shl (.var "c") (.num 11)) (.bin .shr (.var "c") (.bin .sub (.num 32) (.num 11))))),
          .expr (.assignOp .xor (.var "b") (.var "a")),
          .expr (.assignOp .sub (.var "b") (.bin .or (.bin .shl (.var "a") (.num 25)) (.bin .shr (.var "a") (.bin .sub (.num 32) (.num 25))))),
          .expr (.assignOp .xor (.var "c") (.var "b")),
          .expr (.assignOp .sub (.var "c") (.bin .or (.bin .shl (.var "b") (.num 16)) (.bin .shr (.var "b") (.bin .sub (.num 32) (.num 16))))),
          .expr (.assignOp .xor (.var "a") (.var "c")),
          .expr (.assignOp .sub (.var "a") (.bin .or (.bin .shl (.var "c") (.num 4)) (.bin .shr (.var "c") (.bin .sub (.num 32) (.num 4))))),
          .expr (.assignOp .xor (.var "b") (.var "a")),
          .expr (.assignOp .sub (.var "b") (.bin .or (.bin .shl (.var "a") (.num 14)) (.bin .shr (.var "a") (.bin .sub (.num 32) (.num 14))))),
          .expr (.assignOp .xor (.var "c") (.var "b")),
          .expr (.assignOp .sub (.var "c") (.bin .or (.bin .shl (.var "b") (.num 24)) (.bin .shr (.var "b") (.bin .sub (.num 32) (.num 24)))))]))
        (.num 0),
      .retE (.var "c")]) }

/-- tommyhash.c:118-166
```
    tommy_uint64_t tommy_hash_u64(tommy_uint64_t init_val, const void* void_key, tommy_size_t key_len)
    {
      const unsigned char* key = tommy_cast(const unsigned char*, void_key);
      tommy_uint32_t a, b, c;
      a = b = c = 0xdeadbeef + ((tommy_uint32_t)key_len) + (init_val & 0xffffffff);
      c += init_val >> 32;
      while (key_len > 12) {
        a += tommy_le_uint32_read(key + 0);
        b += tommy_le_uint32_read(key + 4);
        c += tommy_le_uint32_read(key + 8);
        tommy_mix(a, b, c);
        key_len -= 12;
        key += 12;
      }
      switch (key_len) {
      case 0 :
        return c + ((tommy_uint64_t)b << 32);
      case 12 :
        c += tommy_le_uint32_read(key + 8);
        b += tommy_le_uint32_read(key + 4);
        a += tommy_le_uint32_read(key + 0);
        break;
      case 11 : c += ((tommy_uint32_t)key[10]) << 16;
      case 10 : c += ((tommy_uint32_t)key[9]) << 8;
      case 9 : c += key[8];
      case 8 :
        b += tommy_le_uint32_read(key + 4);
        a += tommy_le_uint32_read(key + 0);
        break;
      case 7 : b += ((tommy_uint32_t)key[6]) << 16;
      case 6 : b += ((tommy_uint32_t)key[5]) << 8;
      case 5 : b += key[4];
      case 4 :
        a += tommy_le_uint32_read(key + 0);
        break;
      case 3 : a += ((tommy_uint32_t)key[2]) << 16;
      case 2 : a += ((tommy_uint32_t)key[1]) << 8;
      case 1 : a += key[0];
      }
      tommy_final(a, b, c);
      return c + ((tommy_uint64_t)b << 32);
    }
```
-/
def f_tommy_hash_u64 : Fun :=
  { ret := .u64
    params := [("init_val", .u64), ("void_key", .ptr .void), ("key_len", .usize)]
    body := (.list [
      .declInit (.ptr .u8) "key" (.var "void_key"),
      .decl .u32 "a",
      .decl .u32 "b",
      .decl .u32 "c",
      .expr (.assign (.var "a") (.assign (.var "b") (.assign (.var "c") (.bin .add (.bin .add (.lit .u32 3735928559) (.cast .u32 (.var "key_len"))) (.bin .and (.var "init_val") (.lit .u32 4294967295)))))),
      .expr (.assignOp .add (.var "c") (.bin .shr (.var "init_val") (.num 32))),
      .while (.bin .gt (.var "key_len") (.num 12))
        (.block (.list [
          .expr (.assignOp .add (.var "a") (.call "tommy_le_uint32_read" (.cons (.addr (.index (.var "key") (.num 0))) .nil))),
          .expr (.assignOp .add (.var "b") (.call "tommy_le_uint32_read" (.cons (.addr (.index (.var "key") (.num 4))) .nil))),
          .expr (.assignOp .add (.var "c") (.call "tommy_le_uint32_read" (.cons (.addr (.index (.var "key") (.num 8))) .nil))),
          .doWhile
            (.block (.list [
              .expr (.assignOp .sub (.var "a") (.var "c")),
              .expr (.assignOp .xor (.var "a") (.bin .or (.bin .shl (.var "c") (.num 4)) (.bin .shr (.var "c") (.bin .sub (.num 32) (.num 4))))),
              .expr (.assignOp .add (.var "c") (.var "b")),
              .expr (.assignOp .sub (.var "b") (.var "a")),
              .expr (.assignOp .xor (.var "b") (.bin .or (.bin .shl (.var "a") (.num 6)) (.bin .shr (.var "a") (.bin .sub (.num 32) (.num 6))))),
              .expr (.assignOp .add (.var "a") (.var "c")),
              .expr (.assignOp .sub (.var "c") (.var "b")),
              .expr (.assignOp .xor (.var "c") (.bin .or (.bin .shl (.var "b") (.num 8)) (.bin .shr (.var "b") (.bin .sub (.num 32) (.num 8))))),
              .expr (.assignOp .add (.var "b") (.var "a")),
              .expr (.assignOp .sub (.var "a") (.var "c")),
              .expr (.assignOp .xor (.var "a") (.bin .or (.bin .shl (.var "c") (.num 16)) (.bin .shr (.var "c") (.bin .sub (.num 32) (.num 16))))),
              .expr (.assignOp .add (.var "c") (.var "b")),
              .expr (.assignOp .sub (.var "b") (.var "a")),
              .expr (.assignOp .xor (.var "b") (.bin .or (.bin .shl (.var "a") (.num 19)) (.bin .shr (.var "a") (.bin .sub (.num 32) (.num 19))))),
              .expr (.assignOp .add (.var "a") (.var "c")),
              .expr (.assignOp .sub (.var "c") (.var "b")),
              .expr (.assignOp .xor (.var "c") (.bin .or (.bin .shl (.var "b") (.num 4)) (.bin .shr (.var "b") (.bin .sub (.num 32) (.num 4))))),
              .expr (.assignOp .add (.var "b") (.var "a"))]))
            (.num 0),
          .expr (.assignOp .sub (.var "key_len") (.num 12)),
          .expr (.assign (.var "key") (.addr (.index (.var "key") (.num 12))))])),
      .switch (.var "key_len") (.list [
        .case 0 (.list [
          .retE (.bin .add (.var "c") (.bin .shl (.cast .u64 (.var "b")) (.num 32)))]),
        .case 12 (.list [
          .expr (.assignOp .add (.var "c") (.call "tommy_le_uint32_read" (.cons (.addr (.index (.var "key") (.num 8))) .nil))),
          .expr (.assignOp .add (.var "b") (.call "tommy_le_uint32_read" (.cons (.addr (.index (.var "key") (.num 4))) .nil))),
          .expr (.assignOp .add (.var "a") (.call "tommy_le_uint32_read" (.cons (.addr (.index (.var "key") (.num 0))) .nil))),
          .break]),
        .case 11 (.list [
          .expr (.assignOp .add (.var "c") (.bin .shl (.cast .u32 (.index (.var "key") (.num 10))) (.num 16)))]),
        .case 10 (.list [
          .expr (.assignOp .add (.var "c") (.bin .shl (.cast .u32 (.index (.var "key") (.num 9))) (.num 8)))]),
        .case 9 (.list [
          .expr (.assignOp .add (.var "c") (.index (.var "key") (.num 8)))]),
        .case 8 (.list [
          .expr (.assignOp .add (.var "b") (.call "tommy_le_uint32_read" (.cons (.addr (.index (.var "key") (.num 4))) .nil))),
          .expr (.assignOp .add (.var "a") (.call "tommy_le_uint32_read" (.cons (.addr (.index (.var "key") (.num 0))) .nil))),
          .break]),
        .case 7 (.list [
          .expr (.assignOp .add (.var "b") (.bin .shl (.cast .u32 (.index (.var "key") (.num 6))) (.num 16)))]),
        .case 6 (.list [
          .expr (.assignOp .add (.var "b") (.bin .shl (.cast .u32 (.index (.var "key") (.num 5))) (.num 8)))]),
        .case 5 (.list [
          .expr (.assignOp .add (.var "b") (.index (.var "key") (.num 4)))]),
        .case 4 (.list [
          .expr (.assignOp .add (.var "a") (.call "tommy_le_uint32_read" (.cons (.addr (.index (.var "key") (.num 0))) .nil))),
          .break]),
        .case 3 (.list [
          .expr (.assignOp .add (.var "a") (.bin .shl (.cast .u32 (.index (.var "key") (.num 2))) (.num 16)))]),
        .case 2 (.list [
          .expr (.assignOp .add (.var "a") (.bin .shl (.cast .u32 (.index (.var "key") (.num 1))) (.num 8)))]),
        .case 1 (.list [
          .expr (.assignOp .add (.var "a") (.index (.var "key") (.num 0)))])]),
      .doWhile
        (.block (.list [
          .expr (.assignOp .xor (.var "c") (.var "b")),
          .expr (.assignOp .sub (.var "c") (.bin .or (.bin .shl (.var "b") (.num 14)) (.bin .shr (.var "b") (.bin .sub (.num 32) (.num 14))))),
          .expr (.assignOp .xor (.var "a") (.var "c")),
          .expr (.assignOp .sub (.var "a") (.bin .or (.bin .shl (.var "c") (.num 11)) (.bin .shr (.var "c") (.bin .sub (.num 32) (.num 11))))),
          .expr (.assignOp .xor (.var "b") (.var "a")),
          .expr (.assignOp .sub (.var "b") (.bin .or (.bin .shl (.var "a") (.num 25)) (.bin .shr (.var "a") (.bin .sub (.num 32) (.num 25))))),
          .expr (.assignOp .xor (.var "c") (.var "b")),
          .expr (.assignOp .sub (.var "c") (.bin .or (.bin .shl (.var "b") (.num 16)) (.bin .shr (.var "b") (.bin .sub (.num 32) (.num 16))))),
          .expr (.assignOp .xor (.var "a") (.var "c")),
          .expr (.assignOp .sub (.var "a") (.bin .or (.bin .shl (.var "c") (.num 4)) (.bin .shr (.var "c") (.bin .sub (.num 32) (.num 4))))),
          .expr (.assignOp .xor (.var "b") (.var "a")),
          .expr (.assignOp .sub (.var "b") (.bin .or (.bin .shl (.var "a") (.num 14)) (.bin .shr (.var "a") (.bin .sub (.num 32) (.num 14))))),
          .expr (.assignOp .xor (.var "c") (.var "b")),
          .expr (.assignOp .sub (.var "c") (.bin .or (.bin .shl (.var "b") (.num 24)) (.bin .shr (.var "b") (.bin .sub (.num 32) (.num 24)))))]))
        (.num 0),
      .retE (.bin .add (.var "c") (.bin .shl (.cast .u64 (.var "b")) (.num 32)))]) }

/-- tommyhash.c:168-240
```
    tommy_uint32_t tommy_strhash_u32(tommy_uint64_t init_val, const void* void_key)
    {
      const unsigned char* key = tommy_cast(const unsigned char*, void_key);
      tommy_uint32_t a, b, c;
      tommy_uint32_t m[3] = { 0xff, 0xff00, 0xff0000 };
      a = b = c = 0xdeadbeef + init_val;
      while (1) {
        tommy_uint32_t v = tommy_le_uint32_read(key);
        if (tommy_haszero_u32(v)) {
          if (v & m[0]) {
            a += v & m[0];
            if (v & m[1]) {
              a += v & m[1];
              if (v & m[2])
                a += v & m[2];
            }
          }
          break;
        }
        a += v;
        v = tommy_le_uint32_read(key + 4);
        if (tommy_haszero_u32(v)) {
          if (v & m[0]) {
            b += v & m[0];
            if (v & m[1]) {
              b += v & m[1];
              if (v & m[2])
                b += v & m[2];
            }
          }
          break;
        }
        b += v;
        v = tommy_le_uint32_read(key + 8);
        if (tommy_haszero_u32(v)) {
          if (v & m[0]) {
            c += v & m[0];
            if (v & m[1]) {
              c += v & m[1];
              if (v & m[2])
                c += v & m[2];
            }
          }
          break;
        }
        c += v;
        tommy_mix(a, b, c);
        key += 12;
      }
      tommy_final(a, b, c);
      return c;
    }
```
-/
def f_tommy_strhash_u32 : Fun :=
  { ret := .u32
    params := [("init_val", .u64), ("void_key", .ptr .void)]
    body := (.list [
      .declInit (.ptr .u8) "key" (.var "void_key"),
      .decl .u32 "a",
      .decl .u32 "b",
      .decl .u32 "c",
      .decl (.arr .u32 3) "m",
      .expr (.assign (.index (.var "m") (.num 0)) (.num 255)),
      .expr (.assign (.index (.var "m") (.num 1)) (.num 65280)),
      .expr (.assign (.index (.var "m") (.num 2)) (.num 16711680)),
      .expr (.assign (.var "a") (.assign (.var "b") (.assign (.var "c") (.bin .add (.lit .u32 3735928559) (.var "init_val"))))),
      .while (.num 1)
        (.block (.list [
          .declInit .u32 "v" (.call "tommy_le_uint32_read" (.cons (.var "key") .nil)),
          .ite (.call "tommy_haszero_u32" (.cons (.var "v") .nil))
            (.block (.list [
              .ite (.bin .and (.var "v") (.index (.var "m") (.num 0)))
                (.block (.list [
                  .expr (.assignOp .add (.var "a") (.bin .and (.var "v") (.index (.var "m") (.num 0)))),
                  .ite (.bin .and (.var "v") (.index (.var "m") (.num 1)))
                    (.block (.list [
                      .expr (.assignOp .add (.var "a") (.bin .and (.var "v") (.index (.var "m") (.num 1)))),
                      .ite (.bin .and (.var "v") (.index (.var "m") (.num 2)))
                        (.expr (.assignOp .add (.var "a") (.bin .and (.var "v") (.index (.var "m") (.num 2)))))
                        .skip]))
                    .skip]))
                .skip,
              .break]))
            .skip,
          .expr (.assignOp .add (.var "a") (.var "v")),
          .expr (.assign (.var "v") (.call "tommy_le_uint32_read" (.cons (.addr (.index (.var "key") (.num 4))) .nil))),
          .ite (.call "tommy_haszero_u32" (.cons (.var "v") .nil))
            (.block (.list [
              .ite (.bin .and (.var "v") (.index (.var "m") (.num 0)))
                (.block (.list [
                  .expr (.assignOp .add (.var "b") (.bin .and (.var "v") (.index (.var "m") (.num 0)))),
                  .ite (.bin .and (.var "v") (.index (.var "m") (.num 1)))
                    (.block (.list [
                      .expr (.assignOp .add (.var "b") (.bin .and (.var "v") (.index (.var "m") (.num 1)))),
                      .ite (.bin .and (.var "v") (.index (.var "m") (.num 2)))
                        (.expr (.assignOp .add (.var "b") (.bin .and (.var "v") (.index (.var "m") (.num 2)))))
                        .skip]))
                    .skip]))
                .skip,
              .break]))
            .skip,
          .expr (.assignOp .add (.var "b") (.var "v")),
          .expr (.assign (.var "v") (.call "tommy_le_uint32_read" (.cons (.addr (.index (.var "key") (.num 8))) .nil))),
          .ite (.call "tommy_haszero_u32" (.cons (.var "v") .nil))
            (.block (.list [
              .ite (.bin .and (.var "v") (.index (.var "m") (.num 0)))
                (.block (.list [
                  .expr (.assignOp .add (.var "c") (.bin .and (.var "v") (.index (.var "m") (.num 0)))),
                  .ite (.bin .and (.var "v") (.index (.var "m") (.num 1)))
                    (.block (.list [
                      .expr (.assignOp .add (.var "c") (.bin .and (.var "v") (.index (.var "m") (.num 1)))),
                      .ite (.bin .and (.var "v") (.index (.var "m") (.num 2)))
                        (.expr (.assignOp .add (.var "c") (.bin .and (.var "v") (.index (.var "m") (.num 2)))))
                        .skip]))
                    .skip]))
                .skip,
              .break]))
            .skip,
          .expr (.assignOp .add (.var "c") (.var "v")),
          .doWhile
            (.block (.list [
              .expr (.assignOp .sub (.var "a") (.var "c")),
              .expr (.assignOp .xor (.var "a") (.bin .or (.bin .shl (.var "c") (.num 4)) (.bin .shr (.var "c") (.bin .sub (.num 32) (.num 4))))),
              .expr (.assignOp .add (.var "c") (.var "b")),
              .expr (.assignOp .sub (.var "b") (.var "a")),
              .expr (.assignOp .xor (.var "b") (.bin .or (.bin .shl (.var "a") (.num 6)) (.bin .shr (.var "a") (.bin .sub (.num 32) (.num 6))))),
              .expr (.assignOp .add (.var "a") (.var "c")),
              .expr (.assignOp .sub (.var "c") (.var "b")),
              .expr (.assignOp .xor (.var "c") (.bin .or (.bin .shl (.var "b") (.num 8)) (.bin .shr (.var "b") (.bin .sub (.num 32) (.num 8))))),
              .expr (.assignOp .add (.var "b") (.var "a")),
              .expr (.assignOp .sub (.var "a") (.var "c")),
              .expr (.assignOp .xor (.var "a") (.bin .or (.bin .shl (.var "c") (.num 16)) (.bin .shr (.var "c") (.bin .sub (.num 32) (.num 16))))),
              .expr (.assignOp .add (.var "c") (.var "b")),
              .expr (.assignOp .sub (.var "b") (.var "a")),
              .expr (.assignOp .xor (.var "b") (.bin .or (.bin .shl (.var "a") (.num 19)) (.bin .shr (.var "a") (.bin .sub (.num 32) (.num 19))))),
              .expr (.assignOp .add (.var "a") (.var "c")),
              .expr (.assignOp .sub (.var "c") (.var "b")),
              .expr (.assignOp .xor (.var "c") (.bin .or (.bin .shl (.var "b") (.num 4)) (.bin .shr (.var "b") (.bin .sub (.num 32) (.num 4))))),
              .expr (.assignOp .add (.var "b") (.var "a"))]))
            (.num 0),
          .expr (.assign (.var "key") (.addr (.index (.var "key") (.num 12))))])),
      .doWhile
        (.block (.list [
          .expr (.assignOp .xor (.var "c") (.var "b")),
          .expr (.assignOp .sub (.var "c") (.bin .or (.bin .shl (.var "b") (.num 14)) (.bin .shr (.var "b") (.bin .sub (.num 32) (.num 14))))),
          .expr (.assignOp .xor (.var "a") (.var "c")),
          .expr (.assignOp .sub (.var "a") (.bin .or (.bin .shl (.var "c") (.num 11)) (.bin .shr (.var "c") (.bin .sub (.num 32) (.num 11))))),
          .expr (.assignOp .xor (.var "b") (.var "a")),
          .expr (.assignOp .sub (.var "b") (.bin .or (.bin .shl (.var "a") (.num 25)) (.bin .shr (.var "a") (.bin .sub (.num 32) (.num 25))))),
          .expr (.assignOp .xor (.var "c") (.var "b")),
          .expr (.assignOp .sub (.var "c") (.bin .or (.bin .shl (.var "b") (.num 16)) (.bin .shr (.var "b") (.bin .sub (.num 32) (.num 16))))),
          .expr (.assignOp .xor (.var "a") (.var "c")),
          .expr (.assignOp .sub (.var "a") (.bin .or (.bin .shl (.var "c") (.num 4)) (.bin .shr (.var "c") (.bin .sub (.num 32) (.num 4))))),
          .expr (.assignOp .xor (.var "b") (.var "a")),
          .expr (.assignOp .sub (.var "b") (.bin .or (.bin .shl (.var "a") (.num 14)) (.bin .shr (.var "a") (.bin .sub (.num 32) (.num 14))))),
          .expr (.assignOp .xor (.var "c") (.var "b")),
          .expr (.assignOp .sub (.var "c") (.bin .or (.bin .shl (.var "b") (.num 24)) (.bin .shr (.var "b") (.bin .sub (.num 32) (.num 24)))))]))
        (.num 0),
      .retE (.var "c")]) }

/-- The functions of the file. -/
def funsHash : List (String × Fun) := [
  ("tommy_inthash_u32", f_tommy_inthash_u32),
  ("tommy_inthash_u64", f_tommy_inthash_u64),
  ("tommy_le_uint32_read", f_tommy_le_uint32_read),
  ("tommy_hash_u32", f_tommy_hash_u32),
  ("tommy_hash_u64", f_tommy_hash_u64),
  ("tommy_strhash_u32", f_tommy_strhash_u32)]

/-- The structs of the file. -/
def structsHash : List (String × List (String × CTy)) := [
]

end Tommy.C.Src
