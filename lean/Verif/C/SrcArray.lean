import Verif.C.SrcTypes
/-
  Written by tools/c2lean.py from tommyarray.h, tommyarray.c, tommyarrayof.h, tommyarrayof.c, tommyarrayblk.h, tommyarrayblk.c, tommyarrayblkof.h, tommyarrayblkof.c. Not to be changed.
-/
set_option autoImplicit false
namespace Tommy.C.Src

variable [a : Arch]

/-- tommyarray.h:60-65 -/
def s_tommy_array_struct : List (String × CTy) := [
  ("bucket", .arr (.ptr (.ptr .void)) sizeBit),
  ("bucket_max", .usize),
  ("count", .usize),
  ("bucket_bit", .u32)]

/-- tommyarrayof.h:61-67 -/
def s_tommy_arrayof_struct : List (String × CTy) := [
  ("bucket", .arr (.ptr .void) sizeBit),
  ("element_size", .usize),
  ("bucket_max", .usize),
  ("count", .usize),
  ("bucket_bit", .u32)]

/-- tommyarrayblk.h:61-64 -/
def s_tommy_arrayblk_struct : List (String × CTy) := [
  ("block", .struct "tommy_array_struct"),
  ("count", .usize)]

/-- tommyarrayblkof.h:61-65 -/
def s_tommy_arrayblkof_struct : List (String × CTy) := [
  ("block", .struct "tommy_array_struct"),
  ("element_size", .usize),
  ("count", .usize)]

/-- tommyarray.h:88-98
```
    tommy_inline void** tommy_array_ref(tommy_array* array, tommy_size_t pos)
    {
      tommy_uint_t bsr;
      assert(pos < array->count);
      bsr = tommy_ilog2(pos | 1);
      return &array->bucket[bsr][pos];
    }
```
-/
def f_tommy_array_ref : Fun :=
  { ret := .ptr (.ptr .void)
    params := [("array", .ptr (.struct "tommy_array_struct")), ("pos", .usize)]
    body := (.list [
      .decl .u32 "bsr",
      .expr (.call "assert" (.cons (.bin .lt (.var "pos") (.arrow (.var "array") "count")) .nil)),
      .expr (.assign (.var "bsr") (.call m_tommy_ilog2 (.cons (.bin .or (.var "pos") (.num 1)) .nil))),
      .retE (.addr (.index (.index (.arrow (.var "array") "bucket") (.var "bsr")) (.var "pos")))]) }

/-- tommyarray.h:105-108
```
    tommy_inline void tommy_array_set(tommy_array* array, tommy_size_t pos, void* element)
    {
      *tommy_array_ref(array, pos) = element;
    }
```
-/
def f_tommy_array_set : Fun :=
  { ret := .void
    params := [("array", .ptr (.struct "tommy_array_struct")), ("pos", .usize), ("element", .ptr .void)]
    body := (.list [
      .expr (.assign (.deref (.call "tommy_array_ref" (.cons (.var "array") (.cons (.var "pos") .nil)))) (.var "element"))]) }

/-- tommyarray.h:115-118
```
    tommy_inline void* tommy_array_get(tommy_array* array, tommy_size_t pos)
    {
      return *tommy_array_ref(array, pos);
    }
```
-/
def f_tommy_array_get : Fun :=
  { ret := .ptr .void
    params := [("array", .ptr (.struct "tommy_array_struct")), ("pos", .usize)]
    body := (.list [
      .retE (.deref (.call "tommy_array_ref" (.cons (.var "array") (.cons (.var "pos") .nil))))]) }

/-- tommyarray.h:123-130
```
    tommy_inline void tommy_array_insert(tommy_array* array, void* element)
    {
      tommy_size_t pos = array->count;
      tommy_array_grow(array, pos + 1);
      tommy_array_set(array, pos, element);
    }
```
-/
def f_tommy_array_insert : Fun :=
  { ret := .void
    params := [("array", .ptr (.struct "tommy_array_struct")), ("element", .ptr .void)]
    body := (.list [
      .declInit .usize "pos" (.arrow (.var "array") "count"),
      .expr (.call "tommy_array_grow" (.cons (.var "array") (.cons (.bin .add (.var "pos") (.num 1)) .nil))),
      .expr (.call "tommy_array_set" (.cons (.var "array") (.cons (.var "pos") (.cons (.var "element") .nil))))]) }

/-- tommyarray.h:135-138
```
    tommy_inline tommy_size_t tommy_array_size(tommy_array* array)
    {
      return array->count;
    }
```
-/
def f_tommy_array_size : Fun :=
  { ret := .usize
    params := [("array", .ptr (.struct "tommy_array_struct"))]
    body := (.list [
      .retE (.arrow (.var "array") "count")]) }

/-- tommyarray.c:33-45
```
    void tommy_array_init(tommy_array* array)
    {
      tommy_uint_t i;
      array->bucket_bit = TOMMY_ARRAY_BIT;
      array->bucket_max = (tommy_size_t)1 << array->bucket_bit;
      array->bucket[0] = tommy_cast(void**, tommy_calloc(array->bucket_max, sizeof(void*)));
      for (i = 1; i < TOMMY_ARRAY_BIT; ++i)
        array->bucket[i] = array->bucket[0];
      array->count = 0;
    }
```
-/
def f_tommy_array_init : Fun :=
  { ret := .void
    params := [("array", .ptr (.struct "tommy_array_struct"))]
    body := (.list [
      .decl .u32 "i",
      .expr (.assign (.arrow (.var "array") "bucket_bit") (.num 6)),
      .expr (.assign (.arrow (.var "array") "bucket_max") (.bin .shl (.cast .usize (.num 1)) (.arrow (.var "array") "bucket_bit"))),
      .expr (.assign (.index (.arrow (.var "array") "bucket") (.num 0)) (.call "calloc" (.cons (.arrow (.var "array") "bucket_max") (.cons (.sizeT (.ptr .void)) .nil)))),
      .for (.assign (.var "i") (.num 1)) (.bin .lt (.var "i") (.num 6)) (.assignOp .add (.var "i") (.num 1))
        (.expr (.assign (.index (.arrow (.var "array") "bucket") (.var "i")) (.index (.arrow (.var "array") "bucket") (.num 0)))),
      .expr (.assign (.arrow (.var "array") "count") (.num 0))]) }

/-- tommyarray.c:47-56
```
    void tommy_array_done(tommy_array* array)
    {
      tommy_uint_t i;
      tommy_free(array->bucket[0]);
      for (i = TOMMY_ARRAY_BIT; i < array->bucket_bit; ++i) {
        void** segment = array->bucket[i];
        tommy_free(&segment[(tommy_ptrdiff_t)1 << i]);
      }
    }
```
-/
def f_tommy_array_done : Fun :=
  { ret := .void
    params := [("array", .ptr (.struct "tommy_array_struct"))]
    body := (.list [
      .decl .u32 "i",
      .expr (.call "free" (.cons (.index (.arrow (.var "array") "bucket") (.num 0)) .nil)),
      .for (.assign (.var "i") (.num 6)) (.bin .lt (.var "i") (.arrow (.var "array") "bucket_bit")) (.assignOp .add (.var "i") (.num 1))
        (.block (.list [
          .declInit (.ptr (.ptr .void)) "segment" (.index (.arrow (.var "array") "bucket") (.var "i")),
          .expr (.call "free" (.cons (.addr (.index (.var "segment") (.bin .shl (.cast .ssize (.num 1)) (.var "i")))) .nil))]))]) }

/-- tommyarray.c:58-77
```
    void tommy_array_grow(tommy_array* array, tommy_size_t count)
    {
      if (array->count >= count)
        return;
      array->count = count;
      while (count > array->bucket_max) {
        void** segment;
        segment = tommy_cast(void**, tommy_calloc(array->bucket_max, sizeof(void*)));
        array->bucket[array->bucket_bit] = &segment[-(tommy_ptrdiff_t)array->bucket_max];
        ++array->bucket_bit;
        array->bucket_max = (tommy_size_t)1 << array->bucket_bit;
      }
    }
```
-/
def f_tommy_array_grow : Fun :=
  { ret := .void
    params := [("array", .ptr (.struct "tommy_array_struct")), ("count", .usize)]
    body := (.list [
      .ite (.bin .ge (.arrow (.var "array") "count") (.var "count"))
        .ret
        .skip,
      .expr (.assign (.arrow (.var "array") "count") (.var "count")),
      .while (.bin .gt (.var "count") (.arrow (.var "array") "bucket_max"))
        (.block (.list [
          .decl (.ptr (.ptr .void)) "segment",
          .expr (.assign (.var "segment") (.call "calloc" (.cons (.arrow (.var "array") "bucket_max") (.cons (.sizeT (.ptr .void)) .nil)))),
          .expr (.assign (.index (.arrow (.var "array") "bucket") (.arrow (.var "array") "bucket_bit")) (.addr (.index (.var "segment") (.neg (.cast .ssize (.arrow (.var "array") "bucket_max")))))),
          .expr (.assignOp .add (.arrow (.var "array") "bucket_bit") (.num 1)),
          .expr (.assign (.arrow (.var "array") "bucket_max") (.bin .shl (.cast .usize (.num 1)) (.arrow (.var "array") "bucket_bit")))]))]) }

/-- tommyarray.c:79-82
```
    tommy_size_t tommy_array_memory_usage(tommy_array* array)
    {
      return array->bucket_max * (tommy_size_t)sizeof(void*);
    }
```
-/
def f_tommy_array_memory_usage : Fun :=
  { ret := .usize
    params := [("array", .ptr (.struct "tommy_array_struct"))]
    body := (.list [
      .retE (.bin .mul (.arrow (.var "array") "bucket_max") (.cast .usize (.sizeT (.ptr .void))))]) }

/-- tommyarrayof.h:91-104
```
    tommy_inline void* tommy_arrayof_ref(tommy_arrayof* array, tommy_size_t pos)
    {
      unsigned char* ptr;
      tommy_uint_t bsr;
      assert(pos < array->count);
      bsr = tommy_ilog2(pos | 1);
      ptr = tommy_cast(unsigned char*, array->bucket[bsr]);
      return ptr + pos * array->element_size;
    }
```
-/
def f_tommy_arrayof_ref : Fun :=
  { ret := .ptr .void
    params := [("array", .ptr (.struct "tommy_arrayof_struct")), ("pos", .usize)]
    body := (.list [
      .decl (.ptr .u8) "ptr",
      .decl .u32 "bsr",
      .expr (.call "assert" (.cons (.bin .lt (.var "pos") (.arrow (.var "array") "count")) .nil)),
      .expr (.assign (.var "bsr") (.call m_tommy_ilog2 (.cons (.bin .or (.var "pos") (.num 1)) .nil))),
      .expr (.assign (.var "ptr") (.index (.arrow (.var "array") "bucket") (.var "bsr"))),
      .retE (.addr (.index (.var "ptr") (.bin .mul (.var "pos") (.arrow (.var "array") "element_size"))))]) }

/-- tommyarrayof.h:109-112
```
    tommy_inline tommy_size_t tommy_arrayof_size(tommy_arrayof* array)
    {
      return array->count;
    }
```
-/
def f_tommy_arrayof_size : Fun :=
  { ret := .usize
    params := [("array", .ptr (.struct "tommy_arrayof_struct"))]
    body := (.list [
      .retE (.arrow (.var "array") "count")]) }

/-- tommyarrayof.c:33-46
```
    void tommy_arrayof_init(tommy_arrayof* array, tommy_size_t element_size)
    {
      tommy_uint_t i;
      array->element_size = element_size;
      array->bucket_bit = TOMMY_ARRAYOF_BIT;
      array->bucket_max = (tommy_size_t)1 << array->bucket_bit;
      array->bucket[0] = tommy_calloc(array->bucket_max, array->element_size);
      for (i = 1; i < TOMMY_ARRAYOF_BIT; ++i)
        array->bucket[i] = array->bucket[0];
      array->count = 0;
    }
```
-/
def f_tommy_arrayof_init : Fun :=
  { ret := .void
    params := [("array", .ptr (.struct "tommy_arrayof_struct")), ("element_size", .usize)]
    body := (.list [
      .decl .u32 "i",
      .expr (.assign (.arrow (.var "array") "element_size") (.var "element_size")),
      .expr (.assign (.arrow (.var "array") "bucket_bit") (.num 6)),
      .expr (.assign (.arrow (.var "array") "bucket_max") (.bin .shl (.cast .usize (.num 1)) (.arrow (.var "array") "bucket_bit"))),
      .expr (.assign (.index (.arrow (.var "array") "bucket") (.num 0)) (.call "calloc" (.cons (.arrow (.var "array") "bucket_max") (.cons (.arrow (.var "array") "element_size") .nil)))),
      .for (.assign (.var "i") (.num 1)) (.bin .lt (.var "i") (.num 6)) (.assignOp .add (.var "i") (.num 1))
        (.expr (.assign (.index (.arrow (.var "array") "bucket") (.var "i")) (.index (.arrow (.var "array") "bucket") (.num 0)))),
      .expr (.assign (.arrow (.var "array") "count") (.num 0))]) }

/-- tommyarrayof.c:48-57
```
    void tommy_arrayof_done(tommy_arrayof* array)
    {
      tommy_uint_t i;
      tommy_free(array->bucket[0]);
      for (i = TOMMY_ARRAYOF_BIT; i < array->bucket_bit; ++i) {
        unsigned char* segment = tommy_cast(unsigned char*, array->bucket[i]);
        tommy_free(segment + ((tommy_ptrdiff_t)1 << i) * array->element_size);
      }
    }
```
-/
def f_tommy_arrayof_done : Fun :=
  { ret := .void
    params := [("array", .ptr (.struct "tommy_arrayof_struct"))]
    body := (.list [
      .decl .u32 "i",
      .expr (.call "free" (.cons (.index (.arrow (.var "array") "bucket") (.num 0)) .nil)),
      .for (.assign (.var "i") (.num 6)) (.bin .lt (.var "i") (.arrow (.var "array") "bucket_bit")) (.assignOp .add (.var "i") (.num 1))
        (.block (.list [
          .declInit (.ptr .u8) "segment" (.index (.arrow (.var "array") "bucket") (.var "i")),
          .expr (.call "free" (.cons (.addr (.index (.var "segment") (.bin .mul (.bin .shl (.cast .ssize (.num 1)) (.var "i")) (.arrow (.var "array") "element_size")))) .nil))]))]) }

/-- tommyarrayof.c:59-78
```
    void tommy_arrayof_grow(tommy_arrayof* array, tommy_size_t count)
    {
      if (array->count >= count)
        return;
      array->count = count;
      while (count > array->bucket_max) {
        unsigned char* segment;
        segment = tommy_cast(unsigned char*, tommy_calloc(array->bucket_max, array->element_size));
        array->bucket[array->bucket_bit] = segment - (tommy_ptrdiff_t)array->bucket_max * array->element_size;
        ++array->bucket_bit;
        array->bucket_max = (tommy_size_t)1 << array->bucket_bit;
      }
    }
```
-/
def f_tommy_arrayof_grow : Fun :=
  { ret := .void
    params := [("array", .ptr (.struct "tommy_arrayof_struct")), ("count", .usize)]
    body := (.list [
      .ite (.bin .ge (.arrow (.var "array") "count") (.var "count"))
        .ret
        .skip,
      .expr (.assign (.arrow (.var "array") "count") (.var "count")),
      .while (.bin .gt (.var "count") (.arrow (.var "array") "bucket_max"))
        (.block (.list [
          .decl (.ptr .u8) "segment",
          .expr (.assign (.var "segment") (.call "calloc" (.cons (.arrow (.var "array") "bucket_max") (.cons (.arrow (.var "array") "element_size") .nil)))),
          .expr (.assign (.index (.arrow (.var "array") "bucket") (.arrow (.var "array") "bucket_bit")) (.addr (.index (.var "segment") (.neg (.bin .mul (.cast .ssize (.arrow (.var "array") "bucket_max")) (.arrow (.var "array") "element_size")))))),
          .expr (.assignOp .add (.arrow (.var "array") "bucket_bit") (.num 1)),
          .expr (.assign (.arrow (.var "array") "bucket_max") (.bin .shl (.cast .usize (.num 1)) (.arrow (.var "array") "bucket_bit")))]))]) }

/-- tommyarrayof.c:80-83
```
    tommy_size_t tommy_arrayof_memory_usage(tommy_arrayof* array)
    {
      return array->bucket_max * (tommy_size_t)array->element_size;
    }
```
-/
def f_tommy_arrayof_memory_usage : Fun :=
  { ret := .usize
    params := [("array", .ptr (.struct "tommy_arrayof_struct"))]
    body := (.list [
      .retE (.bin .mul (.arrow (.var "array") "bucket_max") (.cast .usize (.arrow (.var "array") "element_size")))]) }

/-- tommyarrayblk.h:87-96
```
    tommy_inline void** tommy_arrayblk_ref(tommy_arrayblk* array, tommy_size_t pos)
    {
      void** ptr;
      assert(pos < array->count);
      ptr = tommy_cast(void**, tommy_array_get(&array->block, pos / TOMMY_ARRAYBLK_SIZE));
      return &ptr[pos % TOMMY_ARRAYBLK_SIZE];
    }
```
-/
def f_tommy_arrayblk_ref : Fun :=
  { ret := .ptr (.ptr .void)
    params := [("array", .ptr (.struct "tommy_arrayblk_struct")), ("pos", .usize)]
    body := (.list [
      .decl (.ptr (.ptr .void)) "ptr",
      .expr (.call "assert" (.cons (.bin .lt (.var "pos") (.arrow (.var "array") "count")) .nil)),
      .expr (.assign (.var "ptr") (.call "tommy_array_get" (.cons (.addr (.arrow (.var "array") "block")) (.cons (.bin .div (.var "pos") (.bin .mul (.num 4) (.num 1024))) .nil)))),
      .retE (.addr (.index (.var "ptr") (.bin .mod (.var "pos") (.bin .mul (.num 4) (.num 1024)))))]) }

/-- tommyarrayblk.h:103-106
```
    tommy_inline void tommy_arrayblk_set(tommy_arrayblk* array, tommy_size_t pos, void* element)
    {
      *tommy_arrayblk_ref(array, pos) = element;
    }
```
-/
def f_tommy_arrayblk_set : Fun :=
  { ret := .void
    params := [("array", .ptr (.struct "tommy_arrayblk_struct")), ("pos", .usize), ("element", .ptr .void)]
    body := (.list [
      .expr (.assign (.deref (.call "tommy_arrayblk_ref" (.cons (.var "array") (.cons (.var "pos") .nil)))) (.var "element"))]) }

/-- tommyarrayblk.h:113-116
```
    tommy_inline void* tommy_arrayblk_get(tommy_arrayblk* array, tommy_size_t pos)
    {
      return *tommy_arrayblk_ref(array, pos);
    }
```
-/
def f_tommy_arrayblk_get : Fun :=
  { ret := .ptr .void
    params := [("array", .ptr (.struct "tommy_arrayblk_struct")), ("pos", .usize)]
    body := (.list [
      .retE (.deref (.call "tommy_arrayblk_ref" (.cons (.var "array") (.cons (.var "pos") .nil))))]) }

/-- tommyarrayblk.h:121-128
```
    tommy_inline void tommy_arrayblk_insert(tommy_arrayblk* array, void* element)
    {
      tommy_size_t pos = array->count;
      tommy_arrayblk_grow(array, pos + 1);
      tommy_arrayblk_set(array, pos, element);
    }
```
-/
def f_tommy_arrayblk_insert : Fun :=
  { ret := .void
    params := [("array", .ptr (.struct "tommy_arrayblk_struct")), ("element", .ptr .void)]
    body := (.list [
      .declInit .usize "pos" (.arrow (.var "array") "count"),
      .expr (.call "tommy_arrayblk_grow" (.cons (.var "array") (.cons (.bin .add (.var "pos") (.num 1)) .nil))),
      .expr (.call "tommy_arrayblk_set" (.cons (.var "array") (.cons (.var "pos") (.cons (.var "element") .nil))))]) }

/-- tommyarrayblk.h:133-136
```
    tommy_inline tommy_size_t tommy_arrayblk_size(tommy_arrayblk* array)
    {
      return array->count;
    }
```
-/
def f_tommy_arrayblk_size : Fun :=
  { ret := .usize
    params := [("array", .ptr (.struct "tommy_arrayblk_struct"))]
    body := (.list [
      .retE (.arrow (.var "array") "count")]) }

/-- tommyarrayblk.c:33-38
```
    void tommy_arrayblk_init(tommy_arrayblk* array)
    {
      tommy_array_init(&array->block);
      array->count = 0;
    }
```
-/
def f_tommy_arrayblk_init : Fun :=
  { ret := .void
    params := [("array", .ptr (.struct "tommy_arrayblk_struct"))]
    body := (.list [
      .expr (.call "tommy_array_init" (.cons (.addr (.arrow (.var "array") "block")) .nil)),
      .expr (.assign (.arrow (.var "array") "count") (.num 0))]) }

/-- tommyarrayblk.c:40-48
```
    void tommy_arrayblk_done(tommy_arrayblk* array)
    {
      tommy_size_t i;
      for (i = 0; i < tommy_array_size(&array->block); ++i)
        tommy_free(tommy_array_get(&array->block, i));
      tommy_array_done(&array->block);
    }
```
-/
def f_tommy_arrayblk_done : Fun :=
  { ret := .void
    params := [("array", .ptr (.struct "tommy_arrayblk_struct"))]
    body := (.list [
      .decl .usize "i",
      .for (.assign (.var "i") (.num 0)) (.bin .lt (.var "i") (.call "tommy_array_size" (.cons (.addr (.arrow (.var "array") "block")) .nil))) (.assignOp .add (.var "i") (.num 1))
        (.expr (.call "free" (.cons (.call "tommy_array_get" (.cons (.addr (.arrow (.var "array") "block")) (.cons (.var "i") .nil))) .nil))),
      .expr (.call "tommy_array_done" (.cons (.addr (.arrow (.var "array") "block")) .nil))]) }

/-- tommyarrayblk.c:50-76
```
    void tommy_arrayblk_grow(tommy_arrayblk* array, tommy_size_t count)
    {
      tommy_size_t block_max;
      tommy_size_t block_mac;
      if (array->count >= count)
        return;
      array->count = count;
      block_max = (count + TOMMY_ARRAYBLK_SIZE - 1) / TOMMY_ARRAYBLK_SIZE;
      block_mac = tommy_array_size(&array->block);
      if (block_mac < block_max) {
        tommy_array_grow(&array->block, block_max);
        while (block_mac < block_max) {
          void** ptr = tommy_cast(void**, tommy_calloc(TOMMY_ARRAYBLK_SIZE, sizeof(void*)));
          tommy_array_set(&array->block, block_mac, ptr);
          ++block_mac;
        }
      }
    }
```
-/
def f_tommy_arrayblk_grow : Fun :=
  { ret := .void
    params := [("array", .ptr (.struct "tommy_arrayblk_struct")), ("count", .usize)]
    body := (.list [
      .decl .usize "block_max",
      .decl .usize "block_mac",
      .ite (.bin .ge (.arrow (.var "array") "count") (.var "count"))
        .ret
        .skip,
      .expr (.assign (.arrow (.var "array") "count") (.var "count")),
      .expr (.assign (.var "block_max") (.bin .div (.bin .sub (.bin .add (.var "count") (.bin .mul (.num 4) (.num 1024))) (.num 1)) (.bin .mul (.num 4) (.num 1024)))),
      .expr (.assign (.var "block_mac") (.call "tommy_array_size" (.cons (.addr (.arrow (.var "array") "block")) .nil))),
      .ite (.bin .lt (.var "block_mac") (.var "block_max"))
        (.block (.list [
          .expr (.call "tommy_array_grow" (.cons (.addr (.arrow (.var "array") "block")) (.cons (.var "block_max") .nil))),
          .while (.bin .lt (.var "block_mac") (.var "block_max"))
            (.block (.list [
              .declInit (.ptr (.ptr .void)) "ptr" (.call "calloc" (.cons (.bin .mul (.num 4) (.num 1024)) (.cons (.sizeT (.ptr .void)) .nil))),
              .expr (.call "tommy_array_set" (.cons (.addr (.arrow (.var "array") "block")) (.cons (.var "block_mac") (.cons (.var "ptr") .nil)))),
              .expr (.assignOp .add (.var "block_mac") (.num 1))]))]))
        .skip]) }

/-- tommyarrayblk.c:78-81
```
    tommy_size_t tommy_arrayblk_memory_usage(tommy_arrayblk* array)
    {
      return tommy_array_memory_usage(&array->block) + tommy_array_size(&array->block) * TOMMY_ARRAYBLK_SIZE * sizeof(void*);
    }
```
-/
def f_tommy_arrayblk_memory_usage : Fun :=
  { ret := .usize
    params := [("array", .ptr (.struct "tommy_arrayblk_struct"))]
    body := (.list [
      .retE (.bin .add (.call "tommy_array_memory_usage" (.cons (.addr (.arrow (.var "array") "block")) .nil)) (.bin .mul (.bin .mul (.call "tommy_array_size" (.cons (.addr (.arrow (.var "array") "block")) .nil)) (.bin .mul (.num 4) (.num 1024))) (.sizeT (.ptr .void))))]) }

/-- tommyarrayblkof.h:89-98
```
    tommy_inline void* tommy_arrayblkof_ref(tommy_arrayblkof* array, tommy_size_t pos)
    {
      unsigned char* base;
      assert(pos < array->count);
      base = tommy_cast(unsigned char*, tommy_array_get(&array->block, pos / TOMMY_ARRAYBLKOF_SIZE));
      return base + (pos % TOMMY_ARRAYBLKOF_SIZE) * array->element_size;
    }
```
-/
def f_tommy_arrayblkof_ref : Fun :=
  { ret := .ptr .void
    params := [("array", .ptr (.struct "tommy_arrayblkof_struct")), ("pos", .usize)]
    body := (.list [
      .decl (.ptr .u8) "base",
      .expr (.call "assert" (.cons (.bin .lt (.var "pos") (.arrow (.var "array") "count")) .nil)),
      .expr (.assign (.var "base") (.call "tommy_array_get" (.cons (.addr (.arrow (.var "array") "block")) (.cons (.bin .div (.var "pos") (.bin .mul (.num 4) (.num 1024))) .nil)))),
      .retE (.addr (.index (.var "base") (.bin .mul (.bin .mod (.var "pos") (.bin .mul (.num 4) (.num 1024))) (.arrow (.var "array") "element_size"))))]) }

/-- tommyarrayblkof.h:103-106
```
    tommy_inline tommy_size_t tommy_arrayblkof_size(tommy_arrayblkof* array)
    {
      return array->count;
    }
```
-/
def f_tommy_arrayblkof_size : Fun :=
  { ret := .usize
    params := [("array", .ptr (.struct "tommy_arrayblkof_struct"))]
    body := (.list [
      .retE (.arrow (.var "array") "count")]) }

/-- tommyarrayblkof.c:33-39
```
    void tommy_arrayblkof_init(tommy_arrayblkof* array, tommy_size_t element_size)
    {
      tommy_array_init(&array->block);
      array->element_size = element_size;
      array->count = 0;
    }
```
-/
def f_tommy_arrayblkof_init : Fun :=
  { ret := .void
    params := [("array", .ptr (.struct "tommy_arrayblkof_struct")), ("element_size", .usize)]
    body := (.list [
      .expr (.call "tommy_array_init" (.cons (.addr (.arrow (.var "array") "block")) .nil)),
      .expr (.assign (.arrow (.var "array") "element_size") (.var "element_size")),
      .expr (.assign (.arrow (.var "array") "count") (.num 0))]) }

/-- tommyarrayblkof.c:41-49
```
    void tommy_arrayblkof_done(tommy_arrayblkof* array)
    {
      tommy_size_t i;
      for (i = 0; i < tommy_array_size(&array->block); ++i)
        tommy_free(tommy_array_get(&array->block, i));
      tommy_array_done(&array->block);
    }
```
-/
def f_tommy_arrayblkof_done : Fun :=
  { ret := .void
    params := [("array", .ptr (.struct "tommy_arrayblkof_struct"))]
    body := (.list [
      .decl .usize "i",
      .for (.assign (.var "i") (.num 0)) (.bin .lt (.var "i") (.call "tommy_array_size" (.cons (.addr (.arrow (.var "array") "block")) .nil))) (.assignOp .add (.var "i") (.num 1))
        (.expr (.call "free" (.cons (.call "tommy_array_get" (.cons (.addr (.arrow (.var "array") "block")) (.cons (.var "i") .nil))) .nil))),
      .expr (.call "tommy_array_done" (.cons (.addr (.arrow (.var "array") "block")) .nil))]) }

/-- tommyarrayblkof.c:51-77
```
    void tommy_arrayblkof_grow(tommy_arrayblkof* array, tommy_size_t count)
    {
      tommy_size_t block_max;
      tommy_size_t block_mac;
      if (array->count >= count)
        return;
      array->count = count;
      block_max = (count + TOMMY_ARRAYBLKOF_SIZE - 1) / TOMMY_ARRAYBLKOF_SIZE;
      block_mac = tommy_array_size(&array->block);
      if (block_mac < block_max) {
        tommy_array_grow(&array->block, block_max);
        while (block_mac < block_max) {
          void** ptr = tommy_cast(void**, tommy_calloc(TOMMY_ARRAYBLKOF_SIZE, array->element_size));
          tommy_array_set(&array->block, block_mac, ptr);
          ++block_mac;
        }
      }
    }
```
-/
def f_tommy_arrayblkof_grow : Fun :=
  { ret := .void
    params := [("array", .ptr (.struct "tommy_arrayblkof_struct")), ("count", .usize)]
    body := (.list [
      .decl .usize "block_max",
      .decl .usize "block_mac",
      .ite (.bin .ge (.arrow (.var "array") "count") (.var "count"))
        .ret
        .skip,
      .expr (.assign (.arrow (.var "array") "count") (.var "count")),
      .expr (.assign (.var "block_max") (.bin .div (.bin .sub (.bin .add (.var "count") (.bin .mul (.num 4) (.num 1024))) (.num 1)) (.bin .mul (.num 4) (.num 1024)))),
      .expr (.assign (.var "block_mac") (.call "tommy_array_size" (.cons (.addr (.arrow (.var "array") "block")) .nil))),
      .ite (.bin .lt (.var "block_mac") (.var "block_max"))
        (.block (.list [
          .expr (.call "tommy_array_grow" (.cons (.addr (.arrow (.var "array") "block")) (.cons (.var "block_max") .nil))),
          .while (.bin .lt (.var "block_mac") (.var "block_max"))
            (.block (.list [
              .declInit (.ptr (.ptr .void)) "ptr" (.call "calloc" (.cons (.bin .mul (.num 4) (.num 1024)) (.cons (.arrow (.var "array") "element_size") .nil))),
              .expr (.call "tommy_array_set" (.cons (.addr (.arrow (.var "array") "block")) (.cons (.var "block_mac") (.cons (.var "ptr") .nil)))),
              .expr (.assignOp .add (.var "block_mac") (.num 1))]))]))
        .skip]) }

/-- tommyarrayblkof.c:79-82
```
    tommy_size_t tommy_arrayblkof_memory_usage(tommy_arrayblkof* array)
    {
      return tommy_array_memory_usage(&array->block) + tommy_array_size(&array->block) * TOMMY_ARRAYBLKOF_SIZE * array->element_size;
    }
```
-/
def f_tommy_arrayblkof_memory_usage : Fun :=
  { ret := .usize
    params := [("array", .ptr (.struct "tommy_arrayblkof_struct"))]
    body := (.list [
      .retE (.bin .add (.call "tommy_array_memory_usage" (.cons (.addr (.arrow (.var "array") "block")) .nil)) (.bin .mul (.bin .mul (.call "tommy_array_size" (.cons (.addr (.arrow (.var "array") "block")) .nil)) (.bin .mul (.num 4) (.num 1024))) (.arrow (.var "array") "element_size")))]) }

/-- The functions of the file. -/
def funsArray : List (String × Fun) := [
  ("tommy_array_ref", f_tommy_array_ref),
  ("tommy_array_set", f_tommy_array_set),
  ("tommy_array_get", f_tommy_array_get),
  ("tommy_array_insert", f_tommy_array_insert),
  ("tommy_array_size", f_tommy_array_size),
  ("tommy_array_init", f_tommy_array_init),
  ("tommy_array_done", f_tommy_array_done),
  ("tommy_array_grow", f_tommy_array_grow),
  ("tommy_array_memory_usage", f_tommy_array_memory_usage),
  ("tommy_arrayof_ref", f_tommy_arrayof_ref),
  ("tommy_arrayof_size", f_tommy_arrayof_size),
  ("tommy_arrayof_init", f_tommy_arrayof_init),
  ("tommy_arrayof_done", f_tommy_arrayof_done),
  ("tommy_arrayof_grow", f_tommy_arrayof_grow),
  ("tommy_arrayof_memory_usage", f_tommy_arrayof_memory_usage),
  ("tommy_arrayblk_ref", f_tommy_arrayblk_ref),
  ("tommy_arrayblk_set", f_tommy_arrayblk_set),
  ("tommy_arrayblk_get", f_tommy_arrayblk_get),
  ("tommy_arrayblk_insert", f_tommy_arrayblk_insert),
  ("tommy_arrayblk_size", f_tommy_arrayblk_size),
  ("tommy_arrayblk_init", f_tommy_arrayblk_init),
  ("tommy_arrayblk_done", f_tommy_arrayblk_done),
  ("tommy_arrayblk_grow", f_tommy_arrayblk_grow),
  ("tommy_arrayblk_memory_usage", f_tommy_arrayblk_memory_usage),
  ("tommy_arrayblkof_ref", f_tommy_arrayblkof_ref),
  ("tommy_arrayblkof_size", f_tommy_arrayblkof_size),
  ("tommy_arrayblkof_init", f_tommy_arrayblkof_init),
  ("tommy_arrayblkof_done", f_tommy_arrayblkof_done),
  ("tommy_arrayblkof_grow", f_tommy_arrayblkof_grow),
  ("tommy_arrayblkof_memory_usage", f_tommy_arrayblkof_memory_usage)]

/-- The structs of the file. -/
def structsArray : List (String × List (String × CTy)) := [
  ("tommy_array_struct", s_tommy_array_struct),
  ("tommy_arrayof_struct", s_tommy_arrayof_struct),
  ("tommy_arrayblk_struct", s_tommy_arrayblk_struct),
  ("tommy_arrayblkof_struct", s_tommy_arrayblkof_struct)]

end Tommy.C.Src
