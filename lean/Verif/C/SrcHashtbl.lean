import Verif.C.SrcTypes
/-
  Written by tools/c2lean.py from tommyhashtbl.h, tommyhashtbl.c. Not to be changed.
-/
set_option autoImplicit false
namespace Tommy.C.Src

variable [a : Arch]

/-- tommyhashtbl.h:145-150 -/
def s_tommy_hashtable_struct : List (String × CTy) := [
  ("bucket", .ptr (.ptr (.struct "tommy_node_struct"))),
  ("bucket_max", .usize),
  ("bucket_mask", .usize),
  ("count", .usize)]

/-- tommyhashtbl.h:192-195
```
    tommy_inline tommy_hashtable_node* tommy_hashtable_bucket(tommy_hashtable* hashtable, tommy_hash_t hash)
    {
      return hashtable->bucket[hash & hashtable->bucket_mask];
    }
```
-/
def f_tommy_hashtable_bucket : Fun :=
  { ret := .ptr (.struct "tommy_node_struct")
    params := [("hashtable", .ptr (.struct "tommy_hashtable_struct")), ("hash", .usize)]
    body := (.list [
      .retE (.index (.arrow (.var "hashtable") "bucket") (.bin .and (.var "hash") (.arrow (.var "hashtable") "bucket_mask")))]) }

/-- tommyhashtbl.h:207-218
```
    tommy_inline void* tommy_hashtable_search(tommy_hashtable* hashtable, tommy_search_func* cmp, const void* cmp_arg, tommy_hash_t hash)
    {
      tommy_hashtable_node* i = tommy_hashtable_bucket(hashtable, hash);
      while (i) {
        if (i->index == hash && cmp(cmp_arg, i->data) == 0)
          return i->data;
        i = i->next;
      }
      return 0;
    }
```
-/
def f_tommy_hashtable_search : Fun :=
  { ret := .ptr .void
    params := [("hashtable", .ptr (.struct "tommy_hashtable_struct")), ("cmp", .ptr .fn), ("cmp_arg", .ptr .void), ("hash", .usize)]
    body := (.list [
      .declInit (.ptr (.struct "tommy_node_struct")) "i" (.call "tommy_hashtable_bucket" (.cons (.var "hashtable") (.cons (.var "hash") .nil))),
      .while (.var "i")
        (.block (.list [
          .ite (.land (.bin .eq (.arrow (.var "i") "index") (.var "hash")) (.bin .eq (.call "cmp" (.cons (.var "cmp_arg") (.cons (.arrow (.var "i") "data") .nil))) (.num 0)))
            (.retE (.arrow (.var "i") "data"))
            .skip,
          .expr (.assign (.var "i") (.arrow (.var "i") "next"))])),
      .retE (.num 0)]) }

/-- tommyhashtbl.h:268-271
```
    tommy_inline tommy_size_t tommy_hashtable_count(tommy_hashtable* hashtable)
    {
      return hashtable->count;
    }
```
-/
def f_tommy_hashtable_count : Fun :=
  { ret := .usize
    params := [("hashtable", .ptr (.struct "tommy_hashtable_struct"))]
    body := (.list [
      .retE (.arrow (.var "hashtable") "count")]) }

/-- tommyhashtbl.c:36-54
```
    void tommy_hashtable_init(tommy_hashtable* hashtable, tommy_size_t bucket_max)
    {
      if (bucket_max < 16)
        bucket_max = 16;
      else
        bucket_max = tommy_roundup_pow2(bucket_max);
      hashtable->bucket_max = bucket_max;
      hashtable->bucket_mask = hashtable->bucket_max - 1;
      hashtable->bucket = tommy_cast(tommy_hashtable_node**, tommy_malloc(hashtable->bucket_max * sizeof(tommy_hashtable_node*)));
      memset(hashtable->bucket, 0, hashtable->bucket_max * sizeof(tommy_hashtable_node*));
      hashtable->count = 0;
    }
```
-/
def f_tommy_hashtable_init : Fun :=
  { ret := .void
    params := [("hashtable", .ptr (.struct "tommy_hashtable_struct")), ("bucket_max", .usize)]
    body := (.list [
      .ite (.bin .lt (.var "bucket_max") (.num 16))
        (.expr (.assign (.var "bucket_max") (.num 16)))
        (.expr (.assign (.var "bucket_max") (.call m_tommy_roundup_pow2 (.cons (.var "bucket_max") .nil)))),
      .expr (.assign (.arrow (.var "hashtable") "bucket_max") (.var "bucket_max")),
      .expr (.assign (.arrow (.var "hashtable") "bucket_mask") (.bin .sub (.arrow (.var "hashtable") "bucket_max") (.num 1))),
      .expr (.assign (.arrow (.var "hashtable") "bucket") (.call "malloc" (.cons (.bin .mul (.arrow (.var "hashtable") "bucket_max") (.sizeT (.ptr (.struct "tommy_node_struct")))) .nil))),
      .expr (.call "memset" (.cons (.arrow (.var "hashtable") "bucket") (.cons (.num 0) (.cons (.bin .mul (.arrow (.var "hashtable") "bucket_max") (.sizeT (.ptr (.struct "tommy_node_struct")))) .nil)))),
      .expr (.assign (.arrow (.var "hashtable") "count") (.num 0))]) }

/-- tommyhashtbl.c:56-59
```
    void tommy_hashtable_done(tommy_hashtable* hashtable)
    {
      tommy_free(hashtable->bucket);
    }
```
-/
def f_tommy_hashtable_done : Fun :=
  { ret := .void
    params := [("hashtable", .ptr (.struct "tommy_hashtable_struct"))]
    body := (.list [
      .expr (.call "free" (.cons (.arrow (.var "hashtable") "bucket") .nil))]) }

/-- tommyhashtbl.c:61-70
```
    void tommy_hashtable_insert(tommy_hashtable* hashtable, tommy_hashtable_node* node, void* data, tommy_hash_t hash)
    {
      tommy_size_t pos = hash & hashtable->bucket_mask;
      tommy_list_insert_tail(&hashtable->bucket[pos], node, data);
      node->index = hash;
      ++hashtable->count;
    }
```
-/
def f_tommy_hashtable_insert : Fun :=
  { ret := .void
    params := [("hashtable", .ptr (.struct "tommy_hashtable_struct")), ("node", .ptr (.struct "tommy_node_struct")), ("data", .ptr .void), ("hash", .usize)]
    body := (.list [
      .declInit .usize "pos" (.bin .and (.var "hash") (.arrow (.var "hashtable") "bucket_mask")),
      .expr (.call "tommy_list_insert_tail" (.cons (.addr (.index (.arrow (.var "hashtable") "bucket") (.var "pos"))) (.cons (.var "node") (.cons (.var "data") .nil)))),
      .expr (.assign (.arrow (.var "node") "index") (.var "hash")),
      .expr (.assignOp .add (.arrow (.var "hashtable") "count") (.num 1))]) }

/-- tommyhashtbl.c:72-81
```
    void* tommy_hashtable_remove_existing(tommy_hashtable* hashtable, tommy_hashtable_node* node)
    {
      tommy_size_t pos = node->index & hashtable->bucket_mask;
      tommy_list_remove_existing(&hashtable->bucket[pos], node);
      --hashtable->count;
      return node->data;
    }
```
-/
def f_tommy_hashtable_remove_existing : Fun :=
  { ret := .ptr .void
    params := [("hashtable", .ptr (.struct "tommy_hashtable_struct")), ("node", .ptr (.struct "tommy_node_struct"))]
    body := (.list [
      .declInit .usize "pos" (.bin .and (.arrow (.var "node") "index") (.arrow (.var "hashtable") "bucket_mask")),
      .expr (.call "tommy_list_remove_existing" (.cons (.addr (.index (.arrow (.var "hashtable") "bucket") (.var "pos"))) (.cons (.var "node") .nil))),
      .expr (.assignOp .sub (.arrow (.var "hashtable") "count") (.num 1)),
      .retE (.arrow (.var "node") "data")]) }

/-- tommyhashtbl.c:83-101
```
    void* tommy_hashtable_remove(tommy_hashtable* hashtable, tommy_search_func* cmp, const void* cmp_arg, tommy_hash_t hash)
    {
      tommy_size_t pos = hash & hashtable->bucket_mask;
      tommy_hashtable_node* node = hashtable->bucket[pos];
      while (node) {
        if (node->index == hash && cmp(cmp_arg, node->data) == 0) {
          tommy_list_remove_existing(&hashtable->bucket[pos], node);
          --hashtable->count;
          return node->data;
        }
        node = node->next;
      }
      return 0;
    }
```
-/
def f_tommy_hashtable_remove : Fun :=
  { ret := .ptr .void
    params := [("hashtable", .ptr (.struct "tommy_hashtable_struct")), ("cmp", .ptr .fn), ("cmp_arg", .ptr .void), ("hash", .usize)]
    body := (.list [
      .declInit .usize "pos" (.bin .and (.var "hash") (.arrow (.var "hashtable") "bucket_mask")),
      .declInit (.ptr (.struct "tommy_node_struct")) "node" (.index (.arrow (.var "hashtable") "bucket") (.var "pos")),
      .while (.var "node")
        (.block (.list [
          .ite (.land (.bin .eq (.arrow (.var "node") "index") (.var "hash")) (.bin .eq (.call "cmp" (.cons (.var "cmp_arg") (.cons (.arrow (.var "node") "data") .nil))) (.num 0)))
            (.block (.list [
              .expr (.call "tommy_list_remove_existing" (.cons (.addr (.index (.arrow (.var "hashtable") "bucket") (.var "pos"))) (.cons (.var "node") .nil))),
              .expr (.assignOp .sub (.arrow (.var "hashtable") "count") (.num 1)),
              .retE (.arrow (.var "node") "data")]))
            .skip,
          .expr (.assign (.var "node") (.arrow (.var "node") "next"))])),
      .retE (.num 0)]) }

/-- tommyhashtbl.c:103-118
```
    void tommy_hashtable_foreach(tommy_hashtable* hashtable, tommy_foreach_func* func)
    {
      tommy_size_t bucket_max = hashtable->bucket_max;
      tommy_hashtable_node** bucket = hashtable->bucket;
      tommy_size_t pos;
      for (pos = 0; pos < bucket_max; ++pos) {
        tommy_hashtable_node* node = bucket[pos];
        while (node) {
          void* data = node->data;
          node = node->next;
          func(data);
        }
      }
    }
```
-/
def f_tommy_hashtable_foreach : Fun :=
  { ret := .void
    params := [("hashtable", .ptr (.struct "tommy_hashtable_struct")), ("func", .ptr .fn)]
    body := (.list [
      .declInit .usize "bucket_max" (.arrow (.var "hashtable") "bucket_max"),
      .declInit (.ptr (.ptr (.struct "tommy_node_struct"))) "bucket" (.arrow (.var "hashtable") "bucket"),
      .decl .usize "pos",
      .for (.assign (.var "pos") (.num 0)) (.bin .lt (.var "pos") (.var "bucket_max")) (.assignOp .add (.var "pos") (.num 1))
        (.block (.list [
          .declInit (.ptr (.struct "tommy_node_struct")) "node" (.index (.var "bucket") (.var "pos")),
          .while (.var "node")
            (.block (.list [
              .declInit (.ptr .void) "data" (.arrow (.var "node") "data"),
              .expr (.assign (.var "node") (.arrow (.var "node") "next")),
              .expr (.call "func" (.cons (.var "data") .nil))]))]))]) }

/-- tommyhashtbl.c:120-135
```
    void tommy_hashtable_foreach_arg(tommy_hashtable* hashtable, tommy_foreach_arg_func* func, void* arg)
    {
      tommy_size_t bucket_max = hashtable->bucket_max;
      tommy_hashtable_node** bucket = hashtable->bucket;
      tommy_size_t pos;
      for (pos = 0; pos < bucket_max; ++pos) {
        tommy_hashtable_node* node = bucket[pos];
        while (node) {
          void* data = node->data;
          node = node->next;
          func(arg, data);
        }
      }
    }
```
-/
def f_tommy_hashtable_foreach_arg : Fun :=
  { ret := .void
    params := [("hashtable", .ptr (.struct "tommy_hashtable_struct")), ("func", .ptr .fn), ("arg", .ptr .void)]
    body := (.list [
      .declInit .usize "bucket_max" (.arrow (.var "hashtable") "bucket_max"),
      .declInit (.ptr (.ptr (.struct "tommy_node_struct"))) "bucket" (.arrow (.var "hashtable") "bucket"),
      .decl .usize "pos",
      .for (.assign (.var "pos") (.num 0)) (.bin .lt (.var "pos") (.var "bucket_max")) (.assignOp .add (.var "pos") (.num 1))
        (.block (.list [
          .declInit (.ptr (.struct "tommy_node_struct")) "node" (.index (.var "bucket") (.var "pos")),
          .while (.var "node")
            (.block (.list [
              .declInit (.ptr .void) "data" (.arrow (.var "node") "data"),
              .expr (.assign (.var "node") (.arrow (.var "node") "next")),
              .expr (.call "func" (.cons (.var "arg") (.cons (.var "data") .nil)))]))]))]) }

/-- tommyhashtbl.c:137-141
```
    tommy_size_t tommy_hashtable_memory_usage(tommy_hashtable* hashtable)
    {
      return hashtable->bucket_max * (tommy_size_t)sizeof(hashtable->bucket[0])
             + tommy_hashtable_count(hashtable) * (tommy_size_t)sizeof(tommy_hashtable_node);
    }
```
-/
def f_tommy_hashtable_memory_usage : Fun :=
  { ret := .usize
    params := [("hashtable", .ptr (.struct "tommy_hashtable_struct"))]
    body := (.list [
      .retE (.bin .add (.bin .mul (.arrow (.var "hashtable") "bucket_max") (.cast .usize (.sizeE (.index (.arrow (.var "hashtable") "bucket") (.num 0))))) (.bin .mul (.call "tommy_hashtable_count" (.cons (.var "hashtable") .nil)) (.cast .usize (.sizeT (.struct "tommy_node_struct")))))]) }

/-- The functions of the file. -/
def funsHashtbl : List (String × Fun) := [
  ("tommy_hashtable_bucket", f_tommy_hashtable_bucket),
  ("tommy_hashtable_search", f_tommy_hashtable_search),
  ("tommy_hashtable_count", f_tommy_hashtable_count),
  ("tommy_hashtable_init", f_tommy_hashtable_init),
  ("tommy_hashtable_done", f_tommy_hashtable_done),
  ("tommy_hashtable_insert", f_tommy_hashtable_insert),
  ("tommy_hashtable_remove_existing", f_tommy_hashtable_remove_existing),
  ("tommy_hashtable_remove", f_tommy_hashtable_remove),
  ("tommy_hashtable_foreach", f_tommy_hashtable_foreach),
  ("tommy_hashtable_foreach_arg", f_tommy_hashtable_foreach_arg),
  ("tommy_hashtable_memory_usage", f_tommy_hashtable_memory_usage)]

/-- The structs of the file. -/
def structsHashtbl : List (String × List (String × CTy)) := [
  ("tommy_hashtable_struct", s_tommy_hashtable_struct)]

end Tommy.C.Src
