import Verif.C.SrcTypes
/-
  Written by tools/c2lean.py from tommyhashdyn.h, tommyhashdyn.c. Not to be changed.
-/
set_option autoImplicit false
namespace Tommy.C.Src

variable [a : Arch]

/-- tommyhashdyn.h:161-167 -/
def s_tommy_hashdyn_struct : List (String × CTy) := [
  ("bucket", .ptr (.ptr (.struct "tommy_node_struct"))),
  ("bucket_max", .usize),
  ("bucket_mask", .usize),
  ("count", .usize),
  ("bucket_bit", .u32)]

/-- tommyhashdyn.h:208-211
```
    tommy_inline tommy_hashdyn_node* tommy_hashdyn_bucket(tommy_hashdyn* hashdyn, tommy_hash_t hash)
    {
      return hashdyn->bucket[hash & hashdyn->bucket_mask];
    }
```
-/
def f_tommy_hashdyn_bucket : Fun :=
  { ret := .ptr (.struct "tommy_node_struct")
    params := [("hashdyn", .ptr (.struct "tommy_hashdyn_struct")), ("hash", .usize)]
    body := (.list [
      .retE (.index (.arrow (.var "hashdyn") "bucket") (.bin .and (.var "hash") (.arrow (.var "hashdyn") "bucket_mask")))]) }

/-- tommyhashdyn.h:223-234
```
    tommy_inline void* tommy_hashdyn_search(tommy_hashdyn* hashdyn, tommy_search_func* cmp, const void* cmp_arg, tommy_hash_t hash)
    {
      tommy_hashdyn_node* i = tommy_hashdyn_bucket(hashdyn, hash);
      while (i) {
        if (i->index == hash && cmp(cmp_arg, i->data) == 0)
          return i->data;
        i = i->next;
      }
      return 0;
    }
```
-/
def f_tommy_hashdyn_search : Fun :=
  { ret := .ptr .void
    params := [("hashdyn", .ptr (.struct "tommy_hashdyn_struct")), ("cmp", .ptr .fn), ("cmp_arg", .ptr .void), ("hash", .usize)]
    body := (.list [
      .declInit (.ptr (.struct "tommy_node_struct")) "i" (.call "tommy_hashdyn_bucket" (.cons (.var "hashdyn") (.cons (.var "hash") .nil))),
      .while (.var "i")
        (.block (.list [
          .ite (.land (.bin .eq (.arrow (.var "i") "index") (.var "hash")) (.bin .eq (.call "cmp" (.cons (.var "cmp_arg") (.cons (.arrow (.var "i") "data") .nil))) (.num 0)))
            (.retE (.arrow (.var "i") "data"))
            .skip,
          .expr (.assign (.var "i") (.arrow (.var "i") "next"))])),
      .retE (.num 0)]) }

/-- tommyhashdyn.h:284-287
```
    tommy_inline tommy_size_t tommy_hashdyn_count(tommy_hashdyn* hashdyn)
    {
      return hashdyn->count;
    }
```
-/
def f_tommy_hashdyn_count : Fun :=
  { ret := .usize
    params := [("hashdyn", .ptr (.struct "tommy_hashdyn_struct"))]
    body := (.list [
      .retE (.arrow (.var "hashdyn") "count")]) }

/-- tommyhashdyn.c:34-43
```
    void tommy_hashdyn_init(tommy_hashdyn* hashdyn)
    {
      hashdyn->bucket_bit = TOMMY_HASHDYN_BIT;
      hashdyn->bucket_max = (tommy_size_t)1 << hashdyn->bucket_bit;
      hashdyn->bucket_mask = hashdyn->bucket_max - 1;
      hashdyn->bucket = tommy_cast(tommy_hashdyn_node**, tommy_calloc(hashdyn->bucket_max, sizeof(tommy_hashdyn_node*)));
      hashdyn->count = 0;
    }
```
-/
def f_tommy_hashdyn_init : Fun :=
  { ret := .void
    params := [("hashdyn", .ptr (.struct "tommy_hashdyn_struct"))]
    body := (.list [
      .expr (.assign (.arrow (.var "hashdyn") "bucket_bit") (.num 4)),
      .expr (.assign (.arrow (.var "hashdyn") "bucket_max") (.bin .shl (.cast .usize (.num 1)) (.arrow (.var "hashdyn") "bucket_bit"))),
      .expr (.assign (.arrow (.var "hashdyn") "bucket_mask") (.bin .sub (.arrow (.var "hashdyn") "bucket_max") (.num 1))),
      .expr (.assign (.arrow (.var "hashdyn") "bucket") (.call "calloc" (.cons (.arrow (.var "hashdyn") "bucket_max") (.cons (.sizeT (.ptr (.struct "tommy_node_struct"))) .nil)))),
      .expr (.assign (.arrow (.var "hashdyn") "count") (.num 0))]) }

/-- tommyhashdyn.c:45-48
```
    void tommy_hashdyn_done(tommy_hashdyn* hashdyn)
    {
      tommy_free(hashdyn->bucket);
    }
```
-/
def f_tommy_hashdyn_done : Fun :=
  { ret := .void
    params := [("hashdyn", .ptr (.struct "tommy_hashdyn_struct"))]
    body := (.list [
      .expr (.call "free" (.cons (.arrow (.var "hashdyn") "bucket") .nil))]) }

/-- tommyhashdyn.c:53-115
```
    static void tommy_hashdyn_resize(tommy_hashdyn* hashdyn, tommy_size_t new_bucket_bit)
    {
      tommy_size_t bucket_bit;
      tommy_size_t bucket_max;
      tommy_size_t new_bucket_max;
      tommy_size_t new_bucket_mask;
      tommy_hashdyn_node** new_bucket;
      bucket_bit = hashdyn->bucket_bit;
      bucket_max = hashdyn->bucket_max;
      new_bucket_max = (tommy_size_t)1 << new_bucket_bit;
      new_bucket_mask = new_bucket_max - 1;
      new_bucket = tommy_cast(tommy_hashdyn_node**, tommy_malloc(new_bucket_max * sizeof(tommy_hashdyn_node*)));
      if (new_bucket_bit > bucket_bit) {
        tommy_size_t i;
        for (i = 0; i < bucket_max; ++i) {
          tommy_hashdyn_node* j;
          new_bucket[i] = 0;
          new_bucket[i + bucket_max] = 0;
          j = hashdyn->bucket[i];
          while (j) {
            tommy_hashdyn_node* j_next = j->next;
            tommy_size_t pos = j->index & new_bucket_mask;
            if (new_bucket[pos])
              tommy_list_insert_tail_not_empty(new_bucket[pos], j);
            else
              tommy_list_insert_first(&new_bucket[pos], j);
            j = j_next;
          }
        }
      } else {
        tommy_size_t i;
        for (i = 0; i < new_bucket_max; ++i) {
          new_bucket[i] = hashdyn->bucket[i];
          tommy_list_concat(&new_bucket[i], &hashdyn->bucket[i + new_bucket_max]);
        }
      }
      tommy_free(hashdyn->bucket);
      hashdyn->bucket_bit = new_bucket_bit;
      hashdyn->bucket_max = new_bucket_max;
      hashdyn->bucket_mask = new_bucket_mask;
      hashdyn->bucket = new_bucket;
    }
```
-/
def f_tommy_hashdyn_resize : Fun :=
  { ret := .void
    params := [("hashdyn", .ptr (.struct "tommy_hashdyn_struct")), ("new_bucket_bit", .usize)]
    body := (.list [
      .decl .usize "bucket_bit",
      .decl .usize "bucket_max",
      .decl .usize "new_bucket_max",
      .decl .usize "new_bucket_mask",
      .decl (.ptr (.ptr (.struct "tommy_node_struct"))) "new_bucket",
      .expr (.assign (.var "bucket_bit") (.arrow (.var "hashdyn") "bucket_bit")),
      .expr (.assign (.var "bucket_max") (.arrow (.var "hashdyn") "bucket_max")),
      .expr (.assign (.var "new_bucket_max") (.bin .shl (.cast .usize (.num 1)) (.var "new_bucket_bit"))),
      .expr (.assign (.var "new_bucket_mask") (.bin .sub (.var "new_bucket_max") (.num 1))),
      .expr (.assign (.var "new_bucket") (.call "malloc" (.cons (.bin .mul (.var "new_bucket_max") (.sizeT (.ptr (.struct "tommy_node_struct")))) .nil))),
      .ite (.bin .gt (.var "new_bucket_bit") (.var "bucket_bit"))
        (.block (.list [
          .decl .usize "i",
          .for (.assign (.var "i") (.num 0)) (.bin .lt (.var "i") (.var "bucket_max")) (.assignOp .add (.var "i") (.num 1))
            (.block (.list [
              .decl (.ptr (.struct "tommy_node_struct")) "j",
              .expr (.assign (.index (.var "new_bucket") (.var "i")) (.num 0)),
              .expr (.assign (.index (.var "new_bucket") (.bin .add (.var "i") (.var "bucket_max"))) (.num 0)),
              .expr (.assign (.var "j") (.index (.arrow (.var "hashdyn") "bucket") (.var "i"))),
              .while (.var "j")
                (.block (.list [
                  .declInit (.ptr (.struct "tommy_node_struct")) "j_next" (.arrow (.var "j") "next"),
                  .declInit .usize "pos" (.bin .and (.arrow (.var "j") "index") (.var "new_bucket_mask")),
                  .ite (.index (.var "new_bucket") (.var "pos"))
                    (.expr (.call "tommy_list_insert_tail_not_empty" (.cons (.index (.var "new_bucket") (.var "pos")) (.cons (.var "j") .nil))))
                    (.expr (.call "tommy_list_insert_first" (.cons (.addr (.index (.var "new_bucket") (.var "pos"))) (.cons (.var "j") .nil)))),
                  .expr (.assign (.var "j") (.var "j_next"))]))]))]))
        (.block (.list [
          .decl .usize "i",
          .for (.assign (.var "i") (.num 0)) (.bin .lt (.var "i") (.var "new_bucket_max")) (.assignOp .add (.var "i") (.num 1))
            (.block (.list [
              .expr (.assign (.index (.var "new_bucket") (.var "i")) (.index (.arrow (.var "hashdyn") "bucket") (.var "i"))),
              .expr (.call "tommy_list_concat" (.cons (.addr (.index (.var "new_bucket") (.var "i"))) (.cons (.addr (.index (.arrow (.var "hashdyn") "bucket") (.bin .add (.var "i") (.var "new_bucket_max")))) .nil)))]))])),
      .expr (.call "free" (.cons (.arrow (.var "hashdyn") "bucket") .nil)),
      .expr (.assign (.arrow (.var "hashdyn") "bucket_bit") (.var "new_bucket_bit")),
      .expr (.assign (.arrow (.var "hashdyn") "bucket_max") (.var "new_bucket_max")),
      .expr (.assign (.arrow (.var "hashdyn") "bucket_mask") (.var "new_bucket_mask")),
      .expr (.assign (.arrow (.var "hashdyn") "bucket") (.var "new_bucket"))]) }

/-- tommyhashdyn.c:120-125
```
    tommy_inline void hashdyn_grow_step(tommy_hashdyn* hashdyn)
    {
      if (hashdyn->count >= hashdyn->bucket_max / 2)
        tommy_hashdyn_resize(hashdyn, hashdyn->bucket_bit + 1);
    }
```
-/
def f_hashdyn_grow_step : Fun :=
  { ret := .void
    params := [("hashdyn", .ptr (.struct "tommy_hashdyn_struct"))]
    body := (.list [
      .ite (.bin .ge (.arrow (.var "hashdyn") "count") (.bin .div (.arrow (.var "hashdyn") "bucket_max") (.num 2)))
        (.expr (.call "tommy_hashdyn_resize" (.cons (.var "hashdyn") (.cons (.bin .add (.arrow (.var "hashdyn") "bucket_bit") (.num 1)) .nil))))
        .skip]) }

/-- tommyhashdyn.c:130-135
```
    tommy_inline void hashdyn_shrink_step(tommy_hashdyn* hashdyn)
    {
      if (hashdyn->count <= hashdyn->bucket_max / 8 && hashdyn->bucket_bit > TOMMY_HASHDYN_BIT)
        tommy_hashdyn_resize(hashdyn, hashdyn->bucket_bit - 1);
    }
```
-/
def f_hashdyn_shrink_step : Fun :=
  { ret := .void
    params := [("hashdyn", .ptr (.struct "tommy_hashdyn_struct"))]
    body := (.list [
      .ite (.land (.bin .le (.arrow (.var "hashdyn") "count") (.bin .div (.arrow (.var "hashdyn") "bucket_max") (.num 8))) (.bin .gt (.arrow (.var "hashdyn") "bucket_bit") (.num 4)))
        (.expr (.call "tommy_hashdyn_resize" (.cons (.var "hashdyn") (.cons (.bin .sub (.arrow (.var "hashdyn") "bucket_bit") (.num 1)) .nil))))
        .skip]) }

/-- tommyhashdyn.c:137-148
```
    void tommy_hashdyn_insert(tommy_hashdyn* hashdyn, tommy_hashdyn_node* node, void* data, tommy_hash_t hash)
    {
      tommy_size_t pos = hash & hashdyn->bucket_mask;
      tommy_list_insert_tail(&hashdyn->bucket[pos], node, data);
      node->index = hash;
      ++hashdyn->count;
      hashdyn_grow_step(hashdyn);
    }
```
-/
def f_tommy_hashdyn_insert : Fun :=
  { ret := .void
    params := [("hashdyn", .ptr (.struct "tommy_hashdyn_struct")), ("node", .ptr (.struct "tommy_node_struct")), ("data", .ptr .void), ("hash", .usize)]
    body := (.list [
      .declInit .usize "pos" (.bin .and (.var "hash") (.arrow (.var "hashdyn") "bucket_mask")),
      .expr (.call "tommy_list_insert_tail" (.cons (.addr (.index (.arrow (.var "hashdyn") "bucket") (.var "pos"))) (.cons (.var "node") (.cons (.var "data") .nil)))),
      .expr (.assign (.arrow (.var "node") "index") (.var "hash")),
      .expr (.assignOp .add (.arrow (.var "hashdyn") "count") (.num 1)),
      .expr (.call "hashdyn_grow_step" (.cons (.var "hashdyn") .nil))]) }

/-- tommyhashdyn.c:150-161
```
    void* tommy_hashdyn_remove_existing(tommy_hashdyn* hashdyn, tommy_hashdyn_node* node)
    {
      tommy_size_t pos = node->index & hashdyn->bucket_mask;
      tommy_list_remove_existing(&hashdyn->bucket[pos], node);
      --hashdyn->count;
      hashdyn_shrink_step(hashdyn);
      return node->data;
    }
```
-/
def f_tommy_hashdyn_remove_existing : Fun :=
  { ret := .ptr .void
    params := [("hashdyn", .ptr (.struct "tommy_hashdyn_struct")), ("node", .ptr (.struct "tommy_node_struct"))]
    body := (.list [
      .declInit .usize "pos" (.bin .and (.arrow (.var "node") "index") (.arrow (.var "hashdyn") "bucket_mask")),
      .expr (.call "tommy_list_remove_existing" (.cons (.addr (.index (.arrow (.var "hashdyn") "bucket") (.var "pos"))) (.cons (.var "node") .nil))),
      .expr (.assignOp .sub (.arrow (.var "hashdyn") "count") (.num 1)),
      .expr (.call "hashdyn_shrink_step" (.cons (.var "hashdyn") .nil)),
      .retE (.arrow (.var "node") "data")]) }

/-- tommyhashdyn.c:163-183
```
    void* tommy_hashdyn_remove(tommy_hashdyn* hashdyn, tommy_search_func* cmp, const void* cmp_arg, tommy_hash_t hash)
    {
      tommy_size_t pos = hash & hashdyn->bucket_mask;
      tommy_hashdyn_node* node = hashdyn->bucket[pos];
      while (node) {
        if (node->index == hash && cmp(cmp_arg, node->data) == 0) {
          tommy_list_remove_existing(&hashdyn->bucket[pos], node);
          --hashdyn->count;
          hashdyn_shrink_step(hashdyn);
          return node->data;
        }
        node = node->next;
      }
      return 0;
    }
```
-/
def f_tommy_hashdyn_remove : Fun :=
  { ret := .ptr .void
    params := [("hashdyn", .ptr (.struct "tommy_hashdyn_struct")), ("cmp", .ptr .fn), ("cmp_arg", .ptr .void), ("hash", .usize)]
    body := (.list [
      .declInit .usize "pos" (.bin .and (.var "hash") (.arrow (.var "hashdyn") "bucket_mask")),
      .declInit (.ptr (.struct "tommy_node_struct")) "node" (.index (.arrow (.var "hashdyn") "bucket") (.var "pos")),
      .while (.var "node")
        (.block (.list [
          .ite (.land (.bin .eq (.arrow (.var "node") "index") (.var "hash")) (.bin .eq (.call "cmp" (.cons (.var "cmp_arg") (.cons (.arrow (.var "node") "data") .nil))) (.num 0)))
            (.block (.list [
              .expr (.call "tommy_list_remove_existing" (.cons (.addr (.index (.arrow (.var "hashdyn") "bucket") (.var "pos"))) (.cons (.var "node") .nil))),
              .expr (.assignOp .sub (.arrow (.var "hashdyn") "count") (.num 1)),
              .expr (.call "hashdyn_shrink_step" (.cons (.var "hashdyn") .nil)),
              .retE (.arrow (.var "node") "data")]))
            .skip,
          .expr (.assign (.var "node") (.arrow (.var "node") "next"))])),
      .retE (.num 0)]) }

/-- tommyhashdyn.c:185-200
```
    void tommy_hashdyn_foreach(tommy_hashdyn* hashdyn, tommy_foreach_func* func)
    {
      tommy_size_t bucket_max = hashdyn->bucket_max;
      tommy_hashdyn_node** bucket = hashdyn->bucket;
      tommy_size_t pos;
      for (pos = 0; pos < bucket_max; ++pos) {
        tommy_hashdyn_node* node = bucket[pos];
        while (node) {
          void* data = node->data;
          node = node->next;
          func(data);
        }
      }
    }
```
-/
def f_tommy_hashdyn_foreach : Fun :=
  { ret := .void
    params := [("hashdyn", .ptr (.struct "tommy_hashdyn_struct")), ("func", .ptr .fn)]
    body := (.list [
      .declInit .usize "bucket_max" (.arrow (.var "hashdyn") "bucket_max"),
      .declInit (.ptr (.ptr (.struct "tommy_node_struct"))) "bucket" (.arrow (.var "hashdyn") "bucket"),
      .decl .usize "pos",
      .for (.assign (.var "pos") (.num 0)) (.bin .lt (.var "pos") (.var "bucket_max")) (.assignOp .add (.var "pos") (.num 1))
        (.block (.list [
          .declInit (.ptr (.struct "tommy_node_struct")) "node" (.index (.var "bucket") (.var "pos")),
          .while (.var "node")
            (.block (.list [
              .declInit (.ptr .void) "data" (.arrow (.var "node") "data"),
              .expr (.assign (.var "node") (.arrow (.var "node") "next")),
              .expr (.call "func" (.cons (.var "data") .nil))]))]))]) }

/-- tommyhashdyn.c:202-217
```
    void tommy_hashdyn_foreach_arg(tommy_hashdyn* hashdyn, tommy_foreach_arg_func* func, void* arg)
    {
      tommy_size_t bucket_max = hashdyn->bucket_max;
      tommy_hashdyn_node** bucket = hashdyn->bucket;
      tommy_size_t pos;
      for (pos = 0; pos < bucket_max; ++pos) {
        tommy_hashdyn_node* node = bucket[pos];
        while (node) {
          void* data = node->data;
          node = node->next;
          func(arg, data);
        }
      }
    }
```
-/
def f_tommy_hashdyn_foreach_arg : Fun :=
  { ret := .void
    params := [("hashdyn", .ptr (.struct "tommy_hashdyn_struct")), ("func", .ptr .fn), ("arg", .ptr .void)]
    body := (.list [
      .declInit .usize "bucket_max" (.arrow (.var "hashdyn") "bucket_max"),
      .declInit (.ptr (.ptr (.struct "tommy_node_struct"))) "bucket" (.arrow (.var "hashdyn") "bucket"),
      .decl .usize "pos",
      .for (.assign (.var "pos") (.num 0)) (.bin .lt (.var "pos") (.var "bucket_max")) (.assignOp .add (.var "pos") (.num 1))
        (.block (.list [
          .declInit (.ptr (.struct "tommy_node_struct")) "node" (.index (.var "bucket") (.var "pos")),
          .while (.var "node")
            (.block (.list [
              .declInit (.ptr .void) "data" (.arrow (.var "node") "data"),
              .expr (.assign (.var "node") (.arrow (.var "node") "next")),
              .expr (.call "func" (.cons (.var "arg") (.cons (.var "data") .nil)))]))]))]) }

/-- tommyhashdyn.c:219-223
```
    tommy_size_t tommy_hashdyn_memory_usage(tommy_hashdyn* hashdyn)
    {
      return hashdyn->bucket_max * (tommy_size_t)sizeof(hashdyn->bucket[0])
             + tommy_hashdyn_count(hashdyn) * (tommy_size_t)sizeof(tommy_hashdyn_node);
    }
```
-/
def f_tommy_hashdyn_memory_usage : Fun :=
  { ret := .usize
    params := [("hashdyn", .ptr (.struct "tommy_hashdyn_struct"))]
    body := (.list [
      .retE (.bin .add (.bin .mul (.arrow (.var "hashdyn") "bucket_max") (.cast .usize (.sizeE (.index (.arrow (.var "hashdyn") "bucket") (.num 0))))) (.bin .mul (.call "tommy_hashdyn_count" (.cons (.var "hashdyn") .nil)) (.cast .usize (.sizeT (.struct "tommy_node_struct")))))]) }

/-- The functions of the file. -/
def funsHashdyn : List (String × Fun) := [
  ("tommy_hashdyn_bucket", f_tommy_hashdyn_bucket),
  ("tommy_hashdyn_search", f_tommy_hashdyn_search),
  ("tommy_hashdyn_count", f_tommy_hashdyn_count),
  ("tommy_hashdyn_init", f_tommy_hashdyn_init),
  ("tommy_hashdyn_done", f_tommy_hashdyn_done),
  ("tommy_hashdyn_resize", f_tommy_hashdyn_resize),
  ("hashdyn_grow_step", f_hashdyn_grow_step),
  ("hashdyn_shrink_step", f_hashdyn_shrink_step),
  ("tommy_hashdyn_insert", f_tommy_hashdyn_insert),
  ("tommy_hashdyn_remove_existing", f_tommy_hashdyn_remove_existing),
  ("tommy_hashdyn_remove", f_tommy_hashdyn_remove),
  ("tommy_hashdyn_foreach", f_tommy_hashdyn_foreach),
  ("tommy_hashdyn_foreach_arg", f_tommy_hashdyn_foreach_arg),
  ("tommy_hashdyn_memory_usage", f_tommy_hashdyn_memory_usage)]

/-- The structs of the file. -/
def structsHashdyn : List (String × List (String × CTy)) := [
  ("tommy_hashdyn_struct", s_tommy_hashdyn_struct)]

end Tommy.C.Src
