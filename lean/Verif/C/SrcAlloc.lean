import Verif.C.SrcTypes
/-
  Written by tools/c2lean.py from tommyalloc.h, tommyalloc.c. Not to be changed.
-/
set_option autoImplicit false
namespace Tommy.C.Src

variable [a : Arch]

/-- tommyalloc.h:43-45 -/
def s_tommy_allocator_entry_struct : List (String × CTy) := [
  ("next", .ptr (.struct "tommy_allocator_entry_struct"))]

/-- tommyalloc.h:51-57 -/
def s_tommy_allocator_struct : List (String × CTy) := [
  ("free_block", .ptr (.struct "tommy_allocator_entry_struct")),
  ("used_segment", .ptr (.struct "tommy_allocator_entry_struct")),
  ("block_size", .usize),
  ("align_size", .usize),
  ("count", .usize)]

/-- tommyalloc.c:40-56
```
    void tommy_allocator_init(tommy_allocator* alloc, tommy_size_t block_size, tommy_size_t align_size)
    {
      if (align_size < sizeof(void*))
        align_size = sizeof(void*);
      if (block_size % align_size != 0)
        block_size += align_size - block_size % align_size;
      alloc->block_size = block_size;
      alloc->align_size = align_size;
      alloc->count = 0;
      alloc->free_block = 0;
      alloc->used_segment = 0;
    }
```
-/
def f_tommy_allocator_init : Fun :=
  { ret := .void
    params := [("alloc", .ptr (.struct "tommy_allocator_struct")), ("block_size", .usize), ("align_size", .usize)]
    body := (.list [
      .ite (.bin .lt (.var "align_size") (.sizeT (.ptr .void)))
        (.expr (.assign (.var "align_size") (.sizeT (.ptr .void))))
        .skip,
      .ite (.bin .ne (.bin .mod (.var "block_size") (.var "align_size")) (.num 0))
        (.expr (.assignOp .add (.var "block_size") (.bin .sub (.var "align_size") (.bin .mod (.var "block_size") (.var "align_size")))))
        .skip,
      .expr (.assign (.arrow (.var "alloc") "block_size") (.var "block_size")),
      .expr (.assign (.arrow (.var "alloc") "align_size") (.var "align_size")),
      .expr (.assign (.arrow (.var "alloc") "count") (.num 0)),
      .expr (.assign (.arrow (.var "alloc") "free_block") (.num 0)),
      .expr (.assign (.arrow (.var "alloc") "used_segment") (.num 0))]) }

/-- tommyalloc.c:61-74
```
    static void allocator_reset(tommy_allocator* alloc)
    {
      tommy_allocator_entry* block = alloc->used_segment;
      while (block) {
        tommy_allocator_entry* block_next = block->next;
        tommy_free(block);
        block = block_next;
      }
      alloc->count = 0;
      alloc->free_block = 0;
      alloc->used_segment = 0;
    }
```
-/
def f_allocator_reset : Fun :=
  { ret := .void
    params := [("alloc", .ptr (.struct "tommy_allocator_struct"))]
    body := (.list [
      .declInit (.ptr (.struct "tommy_allocator_entry_struct")) "block" (.arrow (.var "alloc") "used_segment"),
      .while (.var "block")
        (.block (.list [
          .declInit (.ptr (.struct "tommy_allocator_entry_struct")) "block_next" (.arrow (.var "block") "next"),
          .expr (.call "free" (.cons (.var "block") .nil)),
          .expr (.assign (.var "block") (.var "block_next"))])),
      .expr (.assign (.arrow (.var "alloc") "count") (.num 0)),
      .expr (.assign (.arrow (.var "alloc") "free_block") (.num 0)),
      .expr (.assign (.arrow (.var "alloc") "used_segment") (.num 0))]) }

/-- tommyalloc.c:76-79
```
    void tommy_allocator_done(tommy_allocator* alloc)
    {
      allocator_reset(alloc);
    }
```
-/
def f_tommy_allocator_done : Fun :=
  { ret := .void
    params := [("alloc", .ptr (.struct "tommy_allocator_struct"))]
    body := (.list [
      .expr (.call "allocator_reset" (.cons (.var "alloc") .nil))]) }

/-- tommyalloc.c:81-133
```
    void* tommy_allocator_alloc(tommy_allocator* alloc)
    {
      void* ptr;
      if (!alloc->free_block) {
        tommy_uintptr_t off, mis;
        tommy_size_t size;
        char* data;
        tommy_allocator_entry* segment;
        size = TOMMY_ALLOCATOR_BLOCK_SIZE;
        if (size < sizeof(tommy_allocator_entry) + alloc->align_size + alloc->block_size)
          size = sizeof(tommy_allocator_entry) + alloc->align_size + alloc->block_size;
        data = tommy_cast(char*, tommy_malloc(size));
        segment = (tommy_allocator_entry*)data;
        segment->next = alloc->used_segment;
        alloc->used_segment = segment;
        data += sizeof(tommy_allocator_entry);
        off = (tommy_uintptr_t)data;
        mis = off % alloc->align_size;
        if (mis != 0) {
          data += alloc->align_size - mis;
          size -= alloc->align_size - mis;
        }
        do {
          tommy_allocator_entry* free_block = (tommy_allocator_entry*)data;
          free_block->next = alloc->free_block;
          alloc->free_block = free_block;
          data += alloc->block_size;
          size -= alloc->block_size;
        } while (size >= alloc->block_size);
      }
      ptr = alloc->free_block;
      alloc->free_block = alloc->free_block->next;
      ++alloc->count;
      return ptr;
    }
```
-/
def f_tommy_allocator_alloc : Fun :=
  { ret := .ptr .void
    params := [("alloc", .ptr (.struct "tommy_allocator_struct"))]
    body := (.list [
      .decl (.ptr .void) "ptr",
      .ite (.lnot (.arrow (.var "alloc") "free_block"))
        (.block (.list [
          .decl .usize "off",
          .decl .usize "mis",
          .decl .usize "size",
          .decl (.ptr .u8) "data",
          .decl (.ptr (.struct "tommy_allocator_entry_struct")) "segment",
          .expr (.assign (.var "size") (.bin .sub (.num 4096) (.num 64))),
          .ite (.bin .lt (.var "size") (.bin .add (.bin .add (.sizeT (.struct "tommy_allocator_entry_struct")) (.arrow (.var "alloc") "align_size")) (.arrow (.var "alloc") "block_size")))
            (.expr (.assign (.var "size") (.bin .add (.bin .add (.sizeT (.struct "tommy_allocator_entry_struct")) (.arrow (.var "alloc") "align_size")) (.arrow (.var "alloc") "block_size"))))
            .skip,
          .expr (.assign (.var "data") (.call "malloc" (.cons (.var "size") .nil))),
          .expr (.assign (.var "segment") (.cast (.ptr (.struct "tommy_allocator_entry_struct")) (.var "data"))),
          .expr (.assign (.arrow (.var "segment") "next") (.arrow (.var "alloc") "used_segment")),
          .expr (.assign (.arrow (.var "alloc") "used_segment") (.var "segment")),
          .expr (.assign (.var "data") (.addr (.index (.var "data") (.sizeT (.struct "tommy_allocator_entry_struct"))))),
          .expr (.assign (.var "off") (.cast .usize (.var "data"))),
          .expr (.assign (.var "mis") (.bin .mod (.var "off") (.arrow (.var "alloc") "align_size"))),
          .ite (.bin .ne (.var "mis") (.num 0))
            (.block (.list [
              .expr (.assign (.var "data") (.addr (.index (.var "data") (.bin .sub (.arrow (.var "alloc") "align_size") (.var "mis"))))),
              .expr (.assignOp .sub (.var "size") (.bin .sub (.arrow (.var "alloc") "align_size") (.var "mis")))]))
            .skip,
          .doWhile
            (.block (.list [
              .declInit (.ptr (.struct "tommy_allocator_entry_struct")) "free_block" (.cast (.ptr (.struct "tommy_allocator_entry_struct")) (.var "data")),
              .expr (.assign (.arrow (.var "free_block") "next") (.arrow (.var "alloc") "free_block")),
              .expr (.assign (.arrow (.var "alloc") "free_block") (.var "free_block")),
              .expr (.assign (.var "data") (.addr (.index (.var "data") (.arrow (.var "alloc") "block_size")))),
              .expr (.assignOp .sub (.var "size") (.arrow (.var "alloc") "block_size"))]))
            (.bin .ge (.var "size") (.arrow (.var "alloc") "block_size"))]))
        .skip,
      .expr (.assign (.var "ptr") (.arrow (.var "alloc") "free_block")),
      .expr (.assign (.arrow (.var "alloc") "free_block") (.arrow (.arrow (.var "alloc") "free_block") "next")),
      .expr (.assignOp .add (.arrow (.var "alloc") "count") (.num 1)),
      .retE (.var "ptr")]) }

/-- tommyalloc.c:135-144
```
    void tommy_allocator_free(tommy_allocator* alloc, void* ptr)
    {
      tommy_allocator_entry* free_block = tommy_cast(tommy_allocator_entry*, ptr);
      free_block->next = alloc->free_block;
      alloc->free_block = free_block;
      --alloc->count;
    }
```
-/
def f_tommy_allocator_free : Fun :=
  { ret := .void
    params := [("alloc", .ptr (.struct "tommy_allocator_struct")), ("ptr", .ptr .void)]
    body := (.list [
      .declInit (.ptr (.struct "tommy_allocator_entry_struct")) "free_block" (.var "ptr"),
      .expr (.assign (.arrow (.var "free_block") "next") (.arrow (.var "alloc") "free_block")),
      .expr (.assign (.arrow (.var "alloc") "free_block") (.var "free_block")),
      .expr (.assignOp .sub (.arrow (.var "alloc") "count") (.num 1))]) }

/-- tommyalloc.c:146-149
```
    tommy_size_t tommy_allocator_memory_usage(tommy_allocator* alloc)
    {
      return alloc->count * (tommy_size_t)alloc->block_size;
    }
```
-/
def f_tommy_allocator_memory_usage : Fun :=
  { ret := .usize
    params := [("alloc", .ptr (.struct "tommy_allocator_struct"))]
    body := (.list [
      .retE (.bin .mul (.arrow (.var "alloc") "count") (.cast .usize (.arrow (.var "alloc") "block_size")))]) }

/-- The functions of the file. -/
def funsAlloc : List (String × Fun) := [
  ("tommy_allocator_init", f_tommy_allocator_init),
  ("allocator_reset", f_allocator_reset),
  ("tommy_allocator_done", f_tommy_allocator_done),
  ("tommy_allocator_alloc", f_tommy_allocator_alloc),
  ("tommy_allocator_free", f_tommy_allocator_free),
  ("tommy_allocator_memory_usage", f_tommy_allocator_memory_usage)]

/-- The structs of the file. -/
def structsAlloc : List (String × List (String × CTy)) := [
  ("tommy_allocator_entry_struct", s_tommy_allocator_entry_struct),
  ("tommy_allocator_struct", s_tommy_allocator_struct)]

end Tommy.C.Src
