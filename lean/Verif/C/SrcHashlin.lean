import Verif.C.SrcTypes
/-
  Written by tools/c2lean.py from tommyhashlin.h, tommyhashlin.c. Not to be changed.
-/
set_option autoImplicit false
namespace Tommy.C.Src

variable [a : Arch]

/-- tommyhashlin.h:164-174 -/
def s_tommy_hashlin_struct : List (String × CTy) := [
  ("bucket", .arr (.ptr (.ptr (.struct "tommy_node_struct"))) sizeBit),
  ("bucket_max", .usize),
  ("bucket_mask", .usize),
  ("low_max", .usize),
  ("low_mask", .usize),
  ("split", .usize),
  ("count", .usize),
  ("bucket_bit", .u32),
  ("state", .u32)]

/-- tommyhashlin.h:210-218
```
    tommy_inline tommy_hashlin_node** tommy_hashlin_pos(tommy_hashlin* hashlin, tommy_hash_t pos)
    {
      tommy_uint_t bsr;
      bsr = tommy_ilog2(pos | 1);
      return &hashlin->bucket[bsr][pos];
    }
```
-/
def f_tommy_hashlin_pos : Fun :=
  { ret := .ptr (.ptr (.struct "tommy_node_struct"))
    params := [("hashlin", .ptr (.struct "tommy_hashlin_struct")), ("pos", .usize)]
    body := (.list [
      .decl .u32 "bsr",
      .expr (.assign (.var "bsr") (.call m_tommy_ilog2 (.cons (.bin .or (.var "pos") (.num 1)) .nil))),
      .retE (.addr (.index (.index (.arrow (.var "hashlin") "bucket") (.var "bsr")) (.var "pos")))]) }

/-- tommyhashlin.h:223-247
```
    tommy_inline tommy_hashlin_node** tommy_hashlin_bucket_ref(tommy_hashlin* hashlin, tommy_hash_t hash)
    {
      tommy_size_t pos;
      tommy_size_t high_pos;
      pos = hash & hashlin->low_mask;
      high_pos = hash & hashlin->bucket_mask;
      if (pos < hashlin->split) {
        pos = high_pos;
      }
      return tommy_hashlin_pos(hashlin, pos);
    }
```
-/
def f_tommy_hashlin_bucket_ref : Fun :=
  { ret := .ptr (.ptr (.struct "tommy_node_struct"))
    params := [("hashlin", .ptr (.struct "tommy_hashlin_struct")), ("hash", .usize)]
    body := (.list [
      .decl .usize "pos",
      .decl .usize "high_pos",
      .expr (.assign (.var "pos") (.bin .and (.var "hash") (.arrow (.var "hashlin") "low_mask"))),
      .expr (.assign (.var "high_pos") (.bin .and (.var "hash") (.arrow (.var "hashlin") "bucket_mask"))),
      .ite (.bin .lt (.var "pos") (.arrow (.var "hashlin") "split"))
        (.block (.list [
          .expr (.assign (.var "pos") (.var "high_pos"))]))
        .skip,
      .retE (.call "tommy_hashlin_pos" (.cons (.var "hashlin") (.cons (.var "pos") .nil)))]) }

/-- tommyhashlin.h:257-260
```
    tommy_inline tommy_hashlin_node* tommy_hashlin_bucket(tommy_hashlin* hashlin, tommy_hash_t hash)
    {
      return *tommy_hashlin_bucket_ref(hashlin, hash);
    }
```
-/
def f_tommy_hashlin_bucket : Fun :=
  { ret := .ptr (.struct "tommy_node_struct")
    params := [("hashlin", .ptr (.struct "tommy_hashlin_struct")), ("hash", .usize)]
    body := (.list [
      .retE (.deref (.call "tommy_hashlin_bucket_ref" (.cons (.var "hashlin") (.cons (.var "hash") .nil))))]) }

/-- tommyhashlin.h:272-283
```
    tommy_inline void* tommy_hashlin_search(tommy_hashlin* hashlin, tommy_search_func* cmp, const void* cmp_arg, tommy_hash_t hash)
    {
      tommy_hashlin_node* i = tommy_hashlin_bucket(hashlin, hash);
      while (i) {
        if (i->index == hash && cmp(cmp_arg, i->data) == 0)
          return i->data;
        i = i->next;
      }
      return 0;
    }
```
-/
def f_tommy_hashlin_search : Fun :=
  { ret := .ptr .void
    params := [("hashlin", .ptr (.struct "tommy_hashlin_struct")), ("cmp", .ptr .fn), ("cmp_arg", .ptr .void), ("hash", .usize)]
    body := (.list [
      .declInit (.ptr (.struct "tommy_node_struct")) "i" (.call "tommy_hashlin_bucket" (.cons (.var "hashlin") (.cons (.var "hash") .nil))),
      .while (.var "i")
        (.block (.list [
          .ite (.land (.bin .eq (.arrow (.var "i") "index") (.var "hash")) (.bin .eq (.call "cmp" (.cons (.var "cmp_arg") (.cons (.arrow (.var "i") "data") .nil))) (.num 0)))
            (.retE (.arrow (.var "i") "data"))
            .skip,
          .expr (.assign (.var "i") (.arrow (.var "i") "next"))])),
      .retE (.num 0)]) }

/-- tommyhashlin.h:333-336
```
    tommy_inline tommy_size_t tommy_hashlin_count(tommy_hashlin* hashlin)
    {
      return hashlin->count;
    }
```
-/
def f_tommy_hashlin_count : Fun :=
  { ret := .usize
    params := [("hashlin", .ptr (.struct "tommy_hashlin_struct"))]
    body := (.list [
      .retE (.arrow (.var "hashlin") "count")]) }

/-- tommyhashlin.c:46-55
```
    tommy_inline void tommy_hashlin_stable(tommy_hashlin* hashlin)
    {
      hashlin->state = TOMMY_HASHLIN_STATE_STABLE;
      hashlin->low_max = hashlin->bucket_max;
      hashlin->low_mask = hashlin->bucket_mask;
      hashlin->split = 0;
    }
```
-/
def f_tommy_hashlin_stable : Fun :=
  { ret := .void
    params := [("hashlin", .ptr (.struct "tommy_hashlin_struct"))]
    body := (.list [
      .expr (.assign (.arrow (.var "hashlin") "state") (.num 0)),
      .expr (.assign (.arrow (.var "hashlin") "low_max") (.arrow (.var "hashlin") "bucket_max")),
      .expr (.assign (.arrow (.var "hashlin") "low_mask") (.arrow (.var "hashlin") "bucket_mask")),
      .expr (.assign (.arrow (.var "hashlin") "split") (.num 0))]) }

/-- tommyhashlin.c:57-73
```
    void tommy_hashlin_init(tommy_hashlin* hashlin)
    {
      tommy_uint_t i;
      hashlin->bucket_bit = TOMMY_HASHLIN_BIT;
      hashlin->bucket_max = (tommy_size_t)1 << hashlin->bucket_bit;
      hashlin->bucket_mask = hashlin->bucket_max - 1;
      hashlin->bucket[0] = tommy_cast(tommy_hashlin_node**, tommy_calloc(hashlin->bucket_max, sizeof(tommy_hashlin_node*)));
      for (i = 1; i < TOMMY_HASHLIN_BIT; ++i)
        hashlin->bucket[i] = hashlin->bucket[0];
      tommy_hashlin_stable(hashlin);
      hashlin->count = 0;
    }
```
-/
def f_tommy_hashlin_init : Fun :=
  { ret := .void
    params := [("hashlin", .ptr (.struct "tommy_hashlin_struct"))]
    body := (.list [
      .decl .u32 "i",
      .expr (.assign (.arrow (.var "hashlin") "bucket_bit") (.num 6)),
      .expr (.assign (.arrow (.var "hashlin") "bucket_max") (.bin .shl (.cast .usize (.num 1)) (.arrow (.var "hashlin") "bucket_bit"))),
      .expr (.assign (.arrow (.var "hashlin") "bucket_mask") (.bin .sub (.arrow (.var "hashlin") "bucket_max") (.num 1))),
      .expr (.assign (.index (.arrow (.var "hashlin") "bucket") (.num 0)) (.call "calloc" (.cons (.arrow (.var "hashlin") "bucket_max") (.cons (.sizeT (.ptr (.struct "tommy_node_struct"))) .nil)))),
      .for (.assign (.var "i") (.num 1)) (.bin .lt (.var "i") (.num 6)) (.assignOp .add (.var "i") (.num 1))
        (.expr (.assign (.index (.arrow (.var "hashlin") "bucket") (.var "i")) (.index (.arrow (.var "hashlin") "bucket") (.num 0)))),
      .expr (.call "tommy_hashlin_stable" (.cons (.var "hashlin") .nil)),
      .expr (.assign (.arrow (.var "hashlin") "count") (.num 0))]) }

/-- tommyhashlin.c:75-84
```
    void tommy_hashlin_done(tommy_hashlin* hashlin)
    {
      tommy_uint_t i;
      tommy_free(hashlin->bucket[0]);
      for (i = TOMMY_HASHLIN_BIT; i < hashlin->bucket_bit; ++i) {
        tommy_hashlin_node** segment = hashlin->bucket[i];
        tommy_free(&segment[(tommy_ptrdiff_t)1 << i]);
      }
    }
```
-/
def f_tommy_hashlin_done : Fun :=
  { ret := .void
    params := [("hashlin", .ptr (.struct "tommy_hashlin_struct"))]
    body := (.list [
      .decl .u32 "i",
      .expr (.call "free" (.cons (.index (.arrow (.var "hashlin") "bucket") (.num 0)) .nil)),
      .for (.assign (.var "i") (.num 6)) (.bin .lt (.var "i") (.arrow (.var "hashlin") "bucket_bit")) (.assignOp .add (.var "i") (.num 1))
        (.block (.list [
          .declInit (.ptr (.ptr (.struct "tommy_node_struct"))) "segment" (.index (.arrow (.var "hashlin") "bucket") (.var "i")),
          .expr (.call "free" (.cons (.addr (.index (.var "segment") (.bin .shl (.cast .ssize (.num 1)) (.var "i")))) .nil))]))]) }

/-- tommyhashlin.c:89-175
```
    tommy_inline void hashlin_grow_step(tommy_hashlin* hashlin)
    {
      if (hashlin->state != TOMMY_HASHLIN_STATE_GROW
        && hashlin->count > hashlin->bucket_max / 2
      ) {
        if (hashlin->state == TOMMY_HASHLIN_STATE_STABLE) {
          tommy_hashlin_node** segment;
          hashlin->low_max = hashlin->bucket_max;
          hashlin->low_mask = hashlin->bucket_mask;
          segment = tommy_cast(tommy_hashlin_node**, tommy_malloc(hashlin->low_max * sizeof(tommy_hashlin_node*)));
          hashlin->bucket[hashlin->bucket_bit] = &segment[-(tommy_ptrdiff_t)hashlin->low_max];
          ++hashlin->bucket_bit;
          hashlin->bucket_max = (tommy_size_t)1 << hashlin->bucket_bit;
          hashlin->bucket_mask = hashlin->bucket_max - 1;
          hashlin->split = 0;
        }
        hashlin->state = TOMMY_HASHLIN_STATE_GROW;
      }
      if (hashlin->state == TOMMY_HASHLIN_STATE_GROW) {
        tommy_size_t split_target = 2 * hashlin->count;
        while (hashlin->split + hashlin->low_max < split_target) {
          tommy_hashlin_node** split[2];
          tommy_hashlin_node* j;
          tommy_size_t mask;
          split[0] = tommy_hashlin_pos(hashlin, hashlin->split);
          split[1] = tommy_hashlin_pos(hashlin, hashlin->split + hashlin->low_max);
          j = *split[0];
          *split[0] = 0;
          *split[1] = 0;
          mask = hashlin->low_max;
          while (j) {
            tommy_hashlin_node* j_next = j->next;
            tommy_size_t pos = (j->index & mask) != 0;
            if (*split[pos])
              tommy_list_insert_tail_not_empty(*split[pos], j);
            else
              tommy_list_insert_first(split[pos], j);
            j = j_next;
          }
          ++hashlin->split;
          if (hashlin->split == hashlin->low_max) {
            tommy_hashlin_stable(hashlin);
            break;
          }
        }
      }
    }
```
-/
def f_hashlin_grow_step : Fun :=
  { ret := .void
    params := [("hashlin", .ptr (.struct "tommy_hashlin_struct"))]
    body := (.list [
      .ite (.land (.bin .ne (.arrow (.var "hashlin") "state") (.num 1)) (.bin .gt (.arrow (.var "hashlin") "count") (.bin .div (.arrow (.var "hashlin") "bucket_max") (.num 2))))
        (.block (.list [
          .ite (.bin .eq (.arrow (.var "hashlin") "state") (.num 0))
            (.block (.list [
              .decl (.ptr (.ptr (.struct "tommy_node_struct"))) "segment",
              .expr (.assign (.arrow (.var "hashlin") "low_max") (.arrow (.var "hashlin") "bucket_max")),
              .expr (.assign (.arrow (.var "hashlin") "low_mask") (.arrow (.var "hashlin") "bucket_mask")),
              .expr (.assign (.var "segment") (.call "malloc" (.cons (.bin .mul (.arrow (.var "hashlin") "low_max") (.sizeT (.ptr (.struct "tommy_node_struct")))) .nil))),
              .expr (.assign (.index (.arrow (.var "hashlin") "bucket") (.arrow (.var "hashlin") "bucket_bit")) (.addr (.index (.var "segment") (.neg (.cast .ssize (.arrow (.var "hashlin") "low_max")))))),
              .expr (.assignOp .add (.arrow (.var "hashlin") "bucket_bit") (.num 1)),
              .expr (.assign (.arrow (.var "hashlin") "bucket_max") (.bin .shl (.cast .usize (.num 1)) (.arrow (.var "hashlin") "bucket_bit"))),
              .expr (.assign (.arrow (.var "hashlin") "bucket_mask") (.bin .sub (.arrow (.var "hashlin") "bucket_max") (.num 1))),
              .expr (.assign (.arrow (.var "hashlin") "split") (.num 0))]))
            .skip,
          .expr (.assign (.arrow (.var "hashlin") "state") (.num 1))]))
        .skip,
      .ite (.bin .eq (.arrow (.var "hashlin") "state") (.num 1))
        (.block (.list [
          .declInit .usize "split_target" (.bin .mul (.num 2) (.arrow (.var "hashlin") "count")),
          .while (.bin .lt (.bin .add (.arrow (.var "hashlin") "split") (.arrow (.var "hashlin") "low_max")) (.var "split_target"))
            (.block (.list [
              .decl (.arr (.ptr (.ptr (.struct "tommy_node_struct"))) 2) "split",
              .decl (.ptr (.struct "tommy_node_struct")) "j",
              .decl .usize "mask",
              .expr (.assign (.index (.var "split") (.num 0)) (.call "tommy_hashlin_pos" (.cons (.var "hashlin") (.cons (.arrow (.var "hashlin") "split") .nil)))),
              .expr (.assign (.index (.var "split") (.num 1)) (.call "tommy_hashlin_pos" (.cons (.var "hashlin") (.cons (.bin .add (.arrow (.var "hashlin") "split") (.arrow (.var "hashlin") "low_max")) .nil)))),
              .expr (.assign (.var "j") (.deref (.index (.var "split") (.num 0)))),
              .expr (.assign (.deref (.index (.var "split") (.num 0))) (.num 0)),
              .expr (.assign (.deref (.index (.var "split") (.num 1))) (.num 0)),
              .expr (.assign (.var "mask") (.arrow (.var "hashlin") "low_max")),
              .while (.var "j")
                (.block (.list [
                  .declInit (.ptr (.struct "tommy_node_struct")) "j_next" (.arrow (.var "j") "next"),
                  .declInit .usize "pos" (.bin .ne (.bin .and (.arrow (.var "j") "index") (.var "mask")) (.num 0)),
                  .ite (.deref (.index (.var "split") (.var "pos")))
                    (.expr (.call "tommy_list_insert_tail_not_empty" (.cons (.deref (.index (.var "split") (.var "pos"))) (.cons (.var "j") .nil))))
                    (.expr (.call "tommy_list_insert_first" (.cons (.index (.var "split") (.var "pos")) (.cons (.var "j") .nil)))),
                  .expr (.assign (.var "j") (.var "j_next"))])),
              .expr (.assignOp .add (.arrow (.var "hashlin") "split") (.num 1)),
              .ite (.bin .eq (.arrow (.var "hashlin") "split") (.arrow (.var "hashlin") "low_max"))
                (.block (.list [
                  .expr (.call "tommy_hashlin_stable" (.cons (.var "hashlin") .nil)),
                  .break]))
                .skip]))]))
        .skip]) }

/-- tommyhashlin.c:180-245
```
    tommy_inline void hashlin_shrink_step(tommy_hashlin* hashlin)
    {
      if (hashlin->state != TOMMY_HASHLIN_STATE_SHRINK
        && hashlin->count < hashlin->bucket_max / 8
      ) {
        if (hashlin->bucket_bit > TOMMY_HASHLIN_BIT) {
          if (hashlin->state == TOMMY_HASHLIN_STATE_STABLE) {
            hashlin->low_max = hashlin->bucket_max / 2;
            hashlin->low_mask = hashlin->bucket_mask / 2;
            hashlin->split = hashlin->low_max;
          }
          hashlin->state = TOMMY_HASHLIN_STATE_SHRINK;
        }
      }
      if (hashlin->state == TOMMY_HASHLIN_STATE_SHRINK) {
        tommy_size_t split_target = 8 * hashlin->count;
        while (hashlin->split + hashlin->low_max > split_target) {
          tommy_hashlin_node** split[2];
          --hashlin->split;
          split[0] = tommy_hashlin_pos(hashlin, hashlin->split);
          split[1] = tommy_hashlin_pos(hashlin, hashlin->split + hashlin->low_max);
          tommy_list_concat(split[0], split[1]);
          if (hashlin->split == 0) {
            tommy_hashlin_node** segment;
            --hashlin->bucket_bit;
            hashlin->bucket_max = (tommy_size_t)1 << hashlin->bucket_bit;
            hashlin->bucket_mask = hashlin->bucket_max - 1;
            segment = hashlin->bucket[hashlin->bucket_bit];
            tommy_free(&segment[(tommy_ptrdiff_t)1 << hashlin->bucket_bit]);
            tommy_hashlin_stable(hashlin);
            break;
          }
        }
      }
    }
```
-/
def f_hashlin_shrink_step : Fun :=
  { ret := .void
    params := [("hashlin", .ptr (.struct "tommy_hashlin_struct"))]
    body := (.list [
      .ite (.land (.bin .ne (.arrow (.var "hashlin") "state") (.num 2)) (.bin .lt (.arrow (.var "hashlin") "count") (.bin .div (.arrow (.var "hashlin") "bucket_max") (.num 8))))
        (.block (.list [
          .ite (.bin .gt (.arrow (.var "hashlin") "bucket_bit") (.num 6))
            (.block (.list [
              .ite (.bin .eq (.arrow (.var "hashlin") "state") (.num 0))
                (.block (.list [
                  .expr (.assign (.arrow (.var "hashlin") "low_max") (.bin .div (.arrow (.var "hashlin") "bucket_max") (.num 2))),
                  .expr (.assign (.arrow (.var "hashlin") "low_mask") (.bin .div (.arrow (.var "hashlin") "bucket_mask") (.num 2))),
                  .expr (.assign (.arrow (.var "hashlin") "split") (.arrow (.var "hashlin") "low_max"))]))
                .skip,
              .expr (.assign (.arrow (.var "hashlin") "state") (.num 2))]))
            .skip]))
        .skip,
      .ite (.bin .eq (.arrow (.var "hashlin") "state") (.num 2))
        (.block (.list [
          .declInit .usize "split_target" (.bin .mul (.num 8) (.arrow (.var "hashlin") "count")),
          .while (.bin .gt (.bin .add (.arrow (.var "hashlin") "split") (.arrow (.var "hashlin") "low_max")) (.var "split_target"))
            (.block (.list [
              .decl (.arr (.ptr (.ptr (.struct "tommy_node_struct"))) 2) "split",
              .expr (.assignOp .sub (.arrow (.var "hashlin") "split") (.num 1)),
              .expr (.assign (.index (.var "split") (.num 0)) (.call "tommy_hashlin_pos" (.cons (.var "hashlin") (.cons (.arrow (.var "hashlin") "split") .nil)))),
              .expr (.assign (.index (.var "split") (.num 1)) (.call "tommy_hashlin_pos" (.cons (.var "hashlin") (.cons (.bin .add (.arrow (.var "hashlin") "split") (.arrow (.var "hashlin") "low_max")) .nil)))),
              .expr (.call "tommy_list_concat" (.cons (.index (.var "split") (.num 0)) (.cons (.index (.var "split") (.num 1)) .nil))),
              .ite (.bin .eq (.arrow (.var "hashlin") "split") (.num 0))
                (.block (.list [
                  .decl (.ptr (.ptr (.struct "tommy_node_struct"))) "segment",
                  .expr (.assignOp .sub (.arrow (.var "hashlin") "bucket_bit") (.num 1)),
                  .expr (.assign (.arrow (.var "hashlin") "bucket_max") (.bin .shl (.cast .usize (.num 1)) (.arrow (.var "hashlin") "bucket_bit"))),
                  .expr (.assign (.arrow (.var "hashlin") "bucket_mask") (.bin .sub (.arrow (.var "hashlin") "bucket_max") (.num 1))),
                  .expr (.assign (.var "segment") (.index (.arrow (.var "hashlin") "bucket") (.arrow (.var "hashlin") "bucket_bit"))),
                  .expr (.call "free" (.cons (.addr (.index (.var "segment") (.bin .shl (.cast .ssize (.num 1)) (.arrow (.var "hashlin") "bucket_bit")))) .nil)),
                  .expr (.call "tommy_hashlin_stable" (.cons (.var "hashlin") .nil)),
                  .break]))
                .skip]))]))
        .skip]) }

/-- tommyhashlin.c:247-256
```
    void tommy_hashlin_insert(tommy_hashlin* hashlin, tommy_hashlin_node* node, void* data, tommy_hash_t hash)
    {
      tommy_list_insert_tail(tommy_hashlin_bucket_ref(hashlin, hash), node, data);
      node->index = hash;
      ++hashlin->count;
      hashlin_grow_step(hashlin);
    }
```
-/
def f_tommy_hashlin_insert : Fun :=
  { ret := .void
    params := [("hashlin", .ptr (.struct "tommy_hashlin_struct")), ("node", .ptr (.struct "tommy_node_struct")), ("data", .ptr .void), ("hash", .usize)]
    body := (.list [
      .expr (.call "tommy_list_insert_tail" (.cons (.call "tommy_hashlin_bucket_ref" (.cons (.var "hashlin") (.cons (.var "hash") .nil))) (.cons (.var "node") (.cons (.var "data") .nil)))),
      .expr (.assign (.arrow (.var "node") "index") (.var "hash")),
      .expr (.assignOp .add (.arrow (.var "hashlin") "count") (.num 1)),
      .expr (.call "hashlin_grow_step" (.cons (.var "hashlin") .nil))]) }

/-- tommyhashlin.c:258-267
```
    void* tommy_hashlin_remove_existing(tommy_hashlin* hashlin, tommy_hashlin_node* node)
    {
      tommy_list_remove_existing(tommy_hashlin_bucket_ref(hashlin, node->index), node);
      --hashlin->count;
      hashlin_shrink_step(hashlin);
      return node->data;
    }
```
-/
def f_tommy_hashlin_remove_existing : Fun :=
  { ret := .ptr .void
    params := [("hashlin", .ptr (.struct "tommy_hashlin_struct")), ("node", .ptr (.struct "tommy_node_struct"))]
    body := (.list [
      .expr (.call "tommy_list_remove_existing" (.cons (.call "tommy_hashlin_bucket_ref" (.cons (.var "hashlin") (.cons (.arrow (.var "node") "index") .nil))) (.cons (.var "node") .nil))),
      .expr (.assignOp .sub (.arrow (.var "hashlin") "count") (.num 1)),
      .expr (.call "hashlin_shrink_step" (.cons (.var "hashlin") .nil)),
      .retE (.arrow (.var "node") "data")]) }

/-- tommyhashlin.c:269-289
```
    void* tommy_hashlin_remove(tommy_hashlin* hashlin, tommy_search_func* cmp, const void* cmp_arg, tommy_hash_t hash)
    {
      tommy_hashlin_node** let_ptr = tommy_hashlin_bucket_ref(hashlin, hash);
      tommy_hashlin_node* node = *let_ptr;
      while (node) {
        if (node->index == hash && cmp(cmp_arg, node->data) == 0) {
          tommy_list_remove_existing(let_ptr, node);
          --hashlin->count;
          hashlin_shrink_step(hashlin);
          return node->data;
        }
        node = node->next;
      }
      return 0;
    }
```
-/
def f_tommy_hashlin_remove : Fun :=
  { ret := .ptr .void
    params := [("hashlin", .ptr (.struct "tommy_hashlin_struct")), ("cmp", .ptr .fn), ("cmp_arg", .ptr .void), ("hash", .usize)]
    body := (.list [
      .declInit (.ptr (.ptr (.struct "tommy_node_struct"))) "let_ptr" (.call "tommy_hashlin_bucket_ref" (.cons (.var "hashlin") (.cons (.var "hash") .nil))),
      .declInit (.ptr (.struct "tommy_node_struct")) "node" (.deref (.var "let_ptr")),
      .while (.var "node")
        (.block (.list [
          .ite (.land (.bin .eq (.arrow (.var "node") "index") (.var "hash")) (.bin .eq (.call "cmp" (.cons (.var "cmp_arg") (.cons (.arrow (.var "node") "data") .nil))) (.num 0)))
            (.block (.list [
              .expr (.call "tommy_list_remove_existing" (.cons (.var "let_ptr") (.cons (.var "node") .nil))),
              .expr (.assignOp .sub (.arrow (.var "hashlin") "count") (.num 1)),
              .expr (.call "hashlin_shrink_step" (.cons (.var "hashlin") .nil)),
              .retE (.arrow (.var "node") "data")]))
            .skip,
          .expr (.assign (.var "node") (.arrow (.var "node") "next"))])),
      .retE (.num 0)]) }

/-- tommyhashlin.c:291-308
```
    void tommy_hashlin_foreach(tommy_hashlin* hashlin, tommy_foreach_func* func)
    {
      tommy_size_t bucket_max;
      tommy_size_t pos;
      bucket_max = hashlin->low_max + hashlin->split;
      for (pos = 0; pos < bucket_max; ++pos) {
        tommy_hashlin_node* node = *tommy_hashlin_pos(hashlin, pos);
        while (node) {
          void* data = node->data;
          node = node->next;
          func(data);
        }
      }
    }
```
-/
def f_tommy_hashlin_foreach : Fun :=
  { ret := .void
    params := [("hashlin", .ptr (.struct "tommy_hashlin_struct")), ("func", .ptr .fn)]
    body := (.list [
      .decl .usize "bucket_max",
      .decl .usize "pos",
      .expr (.assign (.var "bucket_max") (.bin .add (.arrow (.var "hashlin") "low_max") (.arrow (.var "hashlin") "split"))),
      .for (.assign (.var "pos") (.num 0)) (.bin .lt (.var "pos") (.var "bucket_max")) (.assignOp .add (.var "pos") (.num 1))
        (.block (.list [
          .declInit (.ptr (.struct "tommy_node_struct")) "node" (.deref (.call "tommy_hashlin_pos" (.cons (.var "hashlin") (.cons (.var "pos") .nil)))),
          .while (.var "node")
            (.block (.list [
              .declInit (.ptr .void) "data" (.arrow (.var "node") "data"),
              .expr (.assign (.var "node") (.arrow (.var "node") "next")),
              .expr (.call "func" (.cons (.var "data") .nil))]))]))]) }

/-- tommyhashlin.c:310-327
```
    void tommy_hashlin_foreach_arg(tommy_hashlin* hashlin, tommy_foreach_arg_func* func, void* arg)
    {
      tommy_size_t bucket_max;
      tommy_size_t pos;
      bucket_max = hashlin->low_max + hashlin->split;
      for (pos = 0; pos < bucket_max; ++pos) {
        tommy_hashlin_node* node = *tommy_hashlin_pos(hashlin, pos);
        while (node) {
          void* data = node->data;
          node = node->next;
          func(arg, data);
        }
      }
    }
```
-/
def f_tommy_hashlin_foreach_arg : Fun :=
  { ret := .void
    params := [("hashlin", .ptr (.struct "tommy_hashlin_struct")), ("func", .ptr .fn), ("arg", .ptr .void)]
    body := (.list [
      .decl .usize "bucket_max",
      .decl .usize "pos",
      .expr (.assign (.var "bucket_max") (.bin .add (.arrow (.var "hashlin") "low_max") (.arrow (.var "hashlin") "split"))),
      .for (.assign (.var "pos") (.num 0)) (.bin .lt (.var "pos") (.var "bucket_max")) (.assignOp .add (.var "pos") (.num 1))
        (.block (.list [
          .declInit (.ptr (.struct "tommy_node_struct")) "node" (.deref (.call "tommy_hashlin_pos" (.cons (.var "hashlin") (.cons (.var "pos") .nil)))),
          .while (.var "node")
            (.block (.list [
              .declInit (.ptr .void) "data" (.arrow (.var "node") "data"),
              .expr (.assign (.var "node") (.arrow (.var "node") "next")),
              .expr (.call "func" (.cons (.var "arg") (.cons (.var "data") .nil)))]))]))]) }

/-- tommyhashlin.c:329-333
```
    tommy_size_t tommy_hashlin_memory_usage(tommy_hashlin* hashlin)
    {
      return hashlin->bucket_max * (tommy_size_t)sizeof(hashlin->bucket[0][0])
             + hashlin->count * (tommy_size_t)sizeof(tommy_hashlin_node);
    }
```
-/
def f_tommy_hashlin_memory_usage : Fun :=
  { ret := .usize
    params := [("hashlin", .ptr (.struct "tommy_hashlin_struct"))]
    body := (.list [
      .retE (.bin .add (.bin .mul (.arrow (.var "hashlin") "bucket_max") (.cast .usize (.sizeE (.index (.index (.arrow (.var "hashlin") "bucket") (.num 0)) (.num 0))))) (.bin .mul (.arrow (.var "hashlin") "count") (.cast .usize (.sizeT (.struct "tommy_node_struct")))))]) }

/-- The functions of the file. -/
def funsHashlin : List (String × Fun) := [
  ("tommy_hashlin_pos", f_tommy_hashlin_pos),
  ("tommy_hashlin_bucket_ref", f_tommy_hashlin_bucket_ref),
  ("tommy_hashlin_bucket", f_tommy_hashlin_bucket),
  ("tommy_hashlin_search", f_tommy_hashlin_search),
  ("tommy_hashlin_count", f_tommy_hashlin_count),
  ("tommy_hashlin_stable", f_tommy_hashlin_stable),
  ("tommy_hashlin_init", f_tommy_hashlin_init),
  ("tommy_hashlin_done", f_tommy_hashlin_done),
  ("hashlin_grow_step", f_hashlin_grow_step),
  ("hashlin_shrink_step", f_hashlin_shrink_step),
  ("tommy_hashlin_insert", f_tommy_hashlin_insert),
  ("tommy_hashlin_remove_existing", f_tommy_hashlin_remove_existing),
  ("tommy_hashlin_remove", f_tommy_hashlin_remove),
  ("tommy_hashlin_foreach", f_tommy_hashlin_foreach),
  ("tommy_hashlin_foreach_arg", f_tommy_hashlin_foreach_arg),
  ("tommy_hashlin_memory_usage", f_tommy_hashlin_memory_usage)]

/-- The structs of the file. -/
def structsHashlin : List (String × List (String × CTy)) := [
  ("tommy_hashlin_struct", s_tommy_hashlin_struct)]

end Tommy.C.Src
