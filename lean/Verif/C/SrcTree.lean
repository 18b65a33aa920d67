import Verif.C.SrcTypes
/-
  Written by tools/c2lean.py from tommytree.h, tommytree.c. Not to be changed.
-/
set_option autoImplicit false
namespace Tommy.C.Src

variable [a : Arch]

/-- tommytree.h:118-122 -/
def s_tommy_tree_struct : List (String × CTy) := [
  ("root", .ptr (.struct "tommy_node_struct")),
  ("cmp", .ptr .fn),
  ("count", .usize)]

/-- tommytree.h:216-219
```
    tommy_inline tommy_size_t tommy_tree_count(tommy_tree* tree)
    {
      return tree->count;
    }
```
-/
def f_tommy_tree_count : Fun :=
  { ret := .usize
    params := [("tree", .ptr (.struct "tommy_tree_struct"))]
    body := (.list [
      .retE (.arrow (.var "tree") "count")]) }

/-- tommytree.c:35-40
```
    void tommy_tree_init(tommy_tree* tree, tommy_compare_func* cmp)
    {
      tree->root = 0;
      tree->count = 0;
      tree->cmp = cmp;
    }
```
-/
def f_tommy_tree_init : Fun :=
  { ret := .void
    params := [("tree", .ptr (.struct "tommy_tree_struct")), ("cmp", .ptr .fn)]
    body := (.list [
      .expr (.assign (.arrow (.var "tree") "root") (.num 0)),
      .expr (.assign (.arrow (.var "tree") "count") (.num 0)),
      .expr (.assign (.arrow (.var "tree") "cmp") (.var "cmp"))]) }

/-- tommytree.c:42-48
```
    static tommy_ssize_t tommy_tree_delta(tommy_tree_node* root)
    {
      tommy_ssize_t left_height = root->prev ? root->prev->index : 0;
      tommy_ssize_t right_height = root->next ? root->next->index : 0;
      return left_height - right_height;
    }
```
-/
def f_tommy_tree_delta : Fun :=
  { ret := .ssize
    params := [("root", .ptr (.struct "tommy_node_struct"))]
    body := (.list [
      .declInit .ssize "left_height" (.cond (.arrow (.var "root") "prev") (.arrow (.arrow (.var "root") "prev") "index") (.num 0)),
      .declInit .ssize "right_height" (.cond (.arrow (.var "root") "next") (.arrow (.arrow (.var "root") "next") "index") (.num 0)),
      .retE (.bin .sub (.var "left_height") (.var "right_height"))]) }

/-- tommytree.c:53-62
```
    static tommy_tree_node* tommy_tree_rotate_left(tommy_tree_node* root)
    {
      tommy_tree_node* next = root->next;
      root->next = next->prev;
      next->prev = tommy_tree_balance(root);
      return tommy_tree_balance(next);
    }
```
-/
def f_tommy_tree_rotate_left : Fun :=
  { ret := .ptr (.struct "tommy_node_struct")
    params := [("root", .ptr (.struct "tommy_node_struct"))]
    body := (.list [
      .declInit (.ptr (.struct "tommy_node_struct")) "next" (.arrow (.var "root") "next"),
      .expr (.assign (.arrow (.var "root") "next") (.arrow (.var "next") "prev")),
      .expr (.assign (.arrow (.var "next") "prev") (.call "tommy_tree_balance" (.cons (.var "root") .nil))),
      .retE (.call "tommy_tree_balance" (.cons (.var "next") .nil))]) }

/-- tommytree.c:64-73
```
    static tommy_tree_node* tommy_tree_rotate_right(tommy_tree_node* root)
    {
      tommy_tree_node* prev = root->prev;
      root->prev = prev->next;
      prev->next = tommy_tree_balance(root);
      return tommy_tree_balance(prev);
    }
```
-/
def f_tommy_tree_rotate_right : Fun :=
  { ret := .ptr (.struct "tommy_node_struct")
    params := [("root", .ptr (.struct "tommy_node_struct"))]
    body := (.list [
      .declInit (.ptr (.struct "tommy_node_struct")) "prev" (.arrow (.var "root") "prev"),
      .expr (.assign (.arrow (.var "root") "prev") (.arrow (.var "prev") "next")),
      .expr (.assign (.arrow (.var "prev") "next") (.call "tommy_tree_balance" (.cons (.var "root") .nil))),
      .retE (.call "tommy_tree_balance" (.cons (.var "prev") .nil))]) }

/-- tommytree.c:75-83
```
    static tommy_tree_node* tommy_tree_move_right(tommy_tree_node* root, tommy_tree_node* node)
    {
      if (!root)
        return node;
      root->next = tommy_tree_move_right(root->next, node);
      return tommy_tree_balance(root);
    }
```
-/
def f_tommy_tree_move_right : Fun :=
  { ret := .ptr (.struct "tommy_node_struct")
    params := [("root", .ptr (.struct "tommy_node_struct")), ("node", .ptr (.struct "tommy_node_struct"))]
    body := (.list [
      .ite (.lnot (.var "root"))
        (.retE (.var "node"))
        .skip,
      .expr (.assign (.arrow (.var "root") "next") (.call "tommy_tree_move_right" (.cons (.arrow (.var "root") "next") (.cons (.var "node") .nil)))),
      .retE (.call "tommy_tree_balance" (.cons (.var "root") .nil))]) }

/-- tommytree.c:85-114
```
    static tommy_tree_node* tommy_tree_balance(tommy_tree_node* root)
    {
      tommy_ssize_t delta = tommy_tree_delta(root);
      if (delta < -1) {
        if (tommy_tree_delta(root->next) > 0)
          root->next = tommy_tree_rotate_right(root->next);
        return tommy_tree_rotate_left(root);
      }
      if (delta > 1) {
        if (tommy_tree_delta(root->prev) < 0)
          root->prev = tommy_tree_rotate_left(root->prev);
        return tommy_tree_rotate_right(root);
      }
      root->index = 0;
      if (root->prev && root->prev->index > root->index)
        root->index = root->prev->index;
      if (root->next && root->next->index > root->index)
        root->index = root->next->index;
      root->index += 1;
      return root;
    }
```
-/
def f_tommy_tree_balance : Fun :=
  { ret := .ptr (.struct "tommy_node_struct")
    params := [("root", .ptr (.struct "tommy_node_struct"))]
    body := (.list [
      .declInit .ssize "delta" (.call "tommy_tree_delta" (.cons (.var "root") .nil)),
      .ite (.bin .lt (.var "delta") (.neg (.num 1)))
        (.block (.list [
          .ite (.bin .gt (.call "tommy_tree_delta" (.cons (.arrow (.var "root") "next") .nil)) (.num 0))
            (.expr (.assign (.arrow (.var "root") "next") (.call "tommy_tree_rotate_right" (.cons (.arrow (.var "root") "next") .nil))))
            .skip,
          .retE (.call "tommy_tree_rotate_left" (.cons (.var "root") .nil))]))
        .skip,
      .ite (.bin .gt (.var "delta") (.num 1))
        (.block (.list [
          .ite (.bin .lt (.call "tommy_tree_delta" (.cons (.arrow (.var "root") "prev") .nil)) (.num 0))
            (.expr (.assign (.arrow (.var "root") "prev") (.call "tommy_tree_rotate_left" (.cons (.arrow (.var "root") "prev") .nil))))
            .skip,
          .retE (.call "tommy_tree_rotate_right" (.cons (.var "root") .nil))]))
        .skip,
      .expr (.assign (.arrow (.var "root") "index") (.num 0)),
      .ite (.land (.arrow (.var "root") "prev") (.bin .gt (.arrow (.arrow (.var "root") "prev") "index") (.arrow (.var "root") "index")))
        (.expr (.assign (.arrow (.var "root") "index") (.arrow (.arrow (.var "root") "prev") "index")))
        .skip,
      .ite (.land (.arrow (.var "root") "next") (.bin .gt (.arrow (.arrow (.var "root") "next") "index") (.arrow (.var "root") "index")))
        (.expr (.assign (.arrow (.var "root") "index") (.arrow (.arrow (.var "root") "next") "index")))
        .skip,
      .expr (.assignOp .add (.arrow (.var "root") "index") (.num 1)),
      .retE (.var "root")]) }

/-- tommytree.c:116-139
```
    static tommy_tree_node* tommy_tree_insert_node(tommy_compare_func* cmp, tommy_tree_node* root, tommy_tree_node** let)
    {
      int c;
      if (!root)
        return *let;
      c = cmp((*let)->data, root->data);
      if (c < 0) {
        root->prev = tommy_tree_insert_node(cmp, root->prev, let);
        return tommy_tree_balance(root);
      }
      if (c > 0) {
        root->next = tommy_tree_insert_node(cmp, root->next, let);
        return tommy_tree_balance(root);
      }
      *let = root;
      return root;
    }
```
-/
def f_tommy_tree_insert_node : Fun :=
  { ret := .ptr (.struct "tommy_node_struct")
    params := [("cmp", .ptr .fn), ("root", .ptr (.struct "tommy_node_struct")), ("let", .ptr (.ptr (.struct "tommy_node_struct")))]
    body := (.list [
      .decl .s32 "c",
      .ite (.lnot (.var "root"))
        (.retE (.deref (.var "let")))
        .skip,
      .expr (.assign (.var "c") (.call "cmp" (.cons (.arrow (.deref (.var "let")) "data") (.cons (.arrow (.var "root") "data") .nil)))),
      .ite (.bin .lt (.var "c") (.num 0))
        (.block (.list [
          .expr (.assign (.arrow (.var "root") "prev") (.call "tommy_tree_insert_node" (.cons (.var "cmp") (.cons (.arrow (.var "root") "prev") (.cons (.var "let") .nil))))),
          .retE (.call "tommy_tree_balance" (.cons (.var "root") .nil))]))
        .skip,
      .ite (.bin .gt (.var "c") (.num 0))
        (.block (.list [
          .expr (.assign (.arrow (.var "root") "next") (.call "tommy_tree_insert_node" (.cons (.var "cmp") (.cons (.arrow (.var "root") "next") (.cons (.var "let") .nil))))),
          .retE (.call "tommy_tree_balance" (.cons (.var "root") .nil))]))
        .skip,
      .expr (.assign (.deref (.var "let")) (.var "root")),
      .retE (.var "root")]) }

/-- tommytree.c:141-156
```
    void* tommy_tree_insert(tommy_tree* tree, tommy_tree_node* node, void* data)
    {
      tommy_tree_node* insert = node;
      insert->data = data;
      insert->prev = 0;
      insert->next = 0;
      insert->index = 0;
      tree->root = tommy_tree_insert_node(tree->cmp, tree->root, &insert);
      if (insert == node)
        ++tree->count;
      return insert->data;
    }
```
-/
def f_tommy_tree_insert : Fun :=
  { ret := .ptr .void
    params := [("tree", .ptr (.struct "tommy_tree_struct")), ("node", .ptr (.struct "tommy_node_struct")), ("data", .ptr .void)]
    body := (.list [
      .scope "&insert" (.ptr (.struct "tommy_node_struct")) (.list [
        .expr (.assign (.deref (.var "&insert")) (.var "node")),
        .expr (.assign (.arrow (.deref (.var "&insert")) "data") (.var "data")),
        .expr (.assign (.arrow (.deref (.var "&insert")) "prev") (.num 0)),
        .expr (.assign (.arrow (.deref (.var "&insert")) "next") (.num 0)),
        .expr (.assign (.arrow (.deref (.var "&insert")) "index") (.num 0)),
        .expr (.assign (.arrow (.var "tree") "root") (.call "tommy_tree_insert_node" (.cons (.arrow (.var "tree") "cmp") (.cons (.arrow (.var "tree") "root") (.cons (.var "&insert") .nil))))),
        .ite (.bin .eq (.deref (.var "&insert")) (.var "node"))
          (.expr (.assignOp .add (.arrow (.var "tree") "count") (.num 1)))
          .skip,
        .retE (.arrow (.deref (.var "&insert")) "data")])]) }

/-- tommytree.c:158-181
```
    static tommy_tree_node* tommy_tree_remove_node(tommy_compare_func* cmp, tommy_tree_node* root, void* data, tommy_tree_node** let)
    {
      int c;
      if (!root)
        return 0;
      c = cmp(data, root->data);
      if (c < 0) {
        root->prev = tommy_tree_remove_node(cmp, root->prev, data, let);
        return tommy_tree_balance(root);
      }
      if (c > 0) {
        root->next = tommy_tree_remove_node(cmp, root->next, data, let);
        return tommy_tree_balance(root);
      }
      *let = root;
      return tommy_tree_move_right(root->prev, root->next);
    }
```
-/
def f_tommy_tree_remove_node : Fun :=
  { ret := .ptr (.struct "tommy_node_struct")
    params := [("cmp", .ptr .fn), ("root", .ptr (.struct "tommy_node_struct")), ("data", .ptr .void), ("let", .ptr (.ptr (.struct "tommy_node_struct")))]
    body := (.list [
      .decl .s32 "c",
      .ite (.lnot (.var "root"))
        (.retE (.num 0))
        .skip,
      .expr (.assign (.var "c") (.call "cmp" (.cons (.var "data") (.cons (.arrow (.var "root") "data") .nil)))),
      .ite (.bin .lt (.var "c") (.num 0))
        (.block (.list [
          .expr (.assign (.arrow (.var "root") "prev") (.call "tommy_tree_remove_node" (.cons (.var "cmp") (.cons (.arrow (.var "root") "prev") (.cons (.var "data") (.cons (.var "let") .nil)))))),
          .retE (.call "tommy_tree_balance" (.cons (.var "root") .nil))]))
        .skip,
      .ite (.bin .gt (.var "c") (.num 0))
        (.block (.list [
          .expr (.assign (.arrow (.var "root") "next") (.call "tommy_tree_remove_node" (.cons (.var "cmp") (.cons (.arrow (.var "root") "next") (.cons (.var "data") (.cons (.var "let") .nil)))))),
          .retE (.call "tommy_tree_balance" (.cons (.var "root") .nil))]))
        .skip,
      .expr (.assign (.deref (.var "let")) (.var "root")),
      .retE (.call "tommy_tree_move_right" (.cons (.arrow (.var "root") "prev") (.cons (.arrow (.var "root") "next") .nil)))]) }

/-- tommytree.c:183-195
```
    void* tommy_tree_remove(tommy_tree* tree, void* data)
    {
      tommy_tree_node* node = 0;
      tree->root = tommy_tree_remove_node(tree->cmp, tree->root, data, &node);
      if (!node)
        return 0;
      --tree->count;
      return node->data;
    }
```
-/
def f_tommy_tree_remove : Fun :=
  { ret := .ptr .void
    params := [("tree", .ptr (.struct "tommy_tree_struct")), ("data", .ptr .void)]
    body := (.list [
      .scope "&node" (.ptr (.struct "tommy_node_struct")) (.list [
        .expr (.assign (.deref (.var "&node")) (.num 0)),
        .expr (.assign (.arrow (.var "tree") "root") (.call "tommy_tree_remove_node" (.cons (.arrow (.var "tree") "cmp") (.cons (.arrow (.var "tree") "root") (.cons (.var "data") (.cons (.var "&node") .nil)))))),
        .ite (.lnot (.deref (.var "&node")))
          (.retE (.num 0))
          .skip,
        .expr (.assignOp .sub (.arrow (.var "tree") "count") (.num 1)),
        .retE (.arrow (.deref (.var "&node")) "data")])]) }

/-- tommytree.c:197-213
```
    static tommy_tree_node* tommy_tree_search_node(tommy_compare_func* cmp, tommy_tree_node* root, void* data)
    {
      int c;
      if (!root)
        return 0;
      c = cmp(data, root->data);
      if (c < 0)
        return tommy_tree_search_node(cmp, root->prev, data);
      if (c > 0)
        return tommy_tree_search_node(cmp, root->next, data);
      return root;
    }
```
-/
def f_tommy_tree_search_node : Fun :=
  { ret := .ptr (.struct "tommy_node_struct")
    params := [("cmp", .ptr .fn), ("root", .ptr (.struct "tommy_node_struct")), ("data", .ptr .void)]
    body := (.list [
      .decl .s32 "c",
      .ite (.lnot (.var "root"))
        (.retE (.num 0))
        .skip,
      .expr (.assign (.var "c") (.call "cmp" (.cons (.var "data") (.cons (.arrow (.var "root") "data") .nil)))),
      .ite (.bin .lt (.var "c") (.num 0))
        (.retE (.call "tommy_tree_search_node" (.cons (.var "cmp") (.cons (.arrow (.var "root") "prev") (.cons (.var "data") .nil)))))
        .skip,
      .ite (.bin .gt (.var "c") (.num 0))
        (.retE (.call "tommy_tree_search_node" (.cons (.var "cmp") (.cons (.arrow (.var "root") "next") (.cons (.var "data") .nil)))))
        .skip,
      .retE (.var "root")]) }

/-- tommytree.c:215-223
```
    void* tommy_tree_search(tommy_tree* tree, void* data)
    {
      tommy_tree_node* node = tommy_tree_search_node(tree->cmp, tree->root, data);
      if (!node)
        return 0;
      return node->data;
    }
```
-/
def f_tommy_tree_search : Fun :=
  { ret := .ptr .void
    params := [("tree", .ptr (.struct "tommy_tree_struct")), ("data", .ptr .void)]
    body := (.list [
      .declInit (.ptr (.struct "tommy_node_struct")) "node" (.call "tommy_tree_search_node" (.cons (.arrow (.var "tree") "cmp") (.cons (.arrow (.var "tree") "root") (.cons (.var "data") .nil)))),
      .ite (.lnot (.var "node"))
        (.retE (.num 0))
        .skip,
      .retE (.arrow (.var "node") "data")]) }

/-- tommytree.c:225-233
```
    void* tommy_tree_search_compare(tommy_tree* tree, tommy_compare_func* cmp, void* cmp_arg)
    {
      tommy_tree_node* node = tommy_tree_search_node(cmp, tree->root, cmp_arg);
      if (!node)
        return 0;
      return node->data;
    }
```
-/
def f_tommy_tree_search_compare : Fun :=
  { ret := .ptr .void
    params := [("tree", .ptr (.struct "tommy_tree_struct")), ("cmp", .ptr .fn), ("cmp_arg", .ptr .void)]
    body := (.list [
      .declInit (.ptr (.struct "tommy_node_struct")) "node" (.call "tommy_tree_search_node" (.cons (.var "cmp") (.cons (.arrow (.var "tree") "root") (.cons (.var "cmp_arg") .nil)))),
      .ite (.lnot (.var "node"))
        (.retE (.num 0))
        .skip,
      .retE (.arrow (.var "node") "data")]) }

/-- tommytree.c:235-242
```
    void* tommy_tree_remove_existing(tommy_tree* tree, tommy_tree_node* node)
    {
      void* data = tommy_tree_remove(tree, node->data);
      assert(data != 0);
      return data;
    }
```
-/
def f_tommy_tree_remove_existing : Fun :=
  { ret := .ptr .void
    params := [("tree", .ptr (.struct "tommy_tree_struct")), ("node", .ptr (.struct "tommy_node_struct"))]
    body := (.list [
      .declInit (.ptr .void) "data" (.call "tommy_tree_remove" (.cons (.var "tree") (.cons (.arrow (.var "node") "data") .nil))),
      .expr (.call "assert" (.cons (.bin .ne (.var "data") (.num 0)) .nil)),
      .retE (.var "data")]) }

/-- tommytree.c:244-259
```
    static void tommy_tree_foreach_node(tommy_tree_node* root, tommy_foreach_func* func)
    {
      tommy_tree_node* next;
      if (!root)
        return;
      tommy_tree_foreach_node(root->prev, func);
      next = root->next;
      func(root->data);
      tommy_tree_foreach_node(next, func);
    }
```
-/
def f_tommy_tree_foreach_node : Fun :=
  { ret := .void
    params := [("root", .ptr (.struct "tommy_node_struct")), ("func", .ptr .fn)]
    body := (.list [
      .decl (.ptr (.struct "tommy_node_struct")) "next",
      .ite (.lnot (.var "root"))
        .ret
        .skip,
      .expr (.call "tommy_tree_foreach_node" (.cons (.arrow (.var "root") "prev") (.cons (.var "func") .nil))),
      .expr (.assign (.var "next") (.arrow (.var "root") "next")),
      .expr (.call "func" (.cons (.arrow (.var "root") "data") .nil)),
      .expr (.call "tommy_tree_foreach_node" (.cons (.var "next") (.cons (.var "func") .nil)))]) }

/-- tommytree.c:261-264
```
    void tommy_tree_foreach(tommy_tree* tree, tommy_foreach_func* func)
    {
      tommy_tree_foreach_node(tree->root, func);
    }
```
-/
def f_tommy_tree_foreach : Fun :=
  { ret := .void
    params := [("tree", .ptr (.struct "tommy_tree_struct")), ("func", .ptr .fn)]
    body := (.list [
      .expr (.call "tommy_tree_foreach_node" (.cons (.arrow (.var "tree") "root") (.cons (.var "func") .nil)))]) }

/-- tommytree.c:266-281
```
    static void tommy_tree_foreach_arg_node(tommy_tree_node* root, tommy_foreach_arg_func* func, void* arg)
    {
      tommy_tree_node* next;
      if (!root)
        return;
      tommy_tree_foreach_arg_node(root->prev, func, arg);
      next = root->next;
      func(arg, root->data);
      tommy_tree_foreach_arg_node(next, func, arg);
    }
```
-/
def f_tommy_tree_foreach_arg_node : Fun :=
  { ret := .void
    params := [("root", .ptr (.struct "tommy_node_struct")), ("func", .ptr .fn), ("arg", .ptr .void)]
    body := (.list [
      .decl (.ptr (.struct "tommy_node_struct")) "next",
      .ite (.lnot (.var "root"))
        .ret
        .skip,
      .expr (.call "tommy_tree_foreach_arg_node" (.cons (.arrow (.var "root") "prev") (.cons (.var "func") (.cons (.var "arg") .nil)))),
      .expr (.assign (.var "next") (.arrow (.var "root") "next")),
      .expr (.call "func" (.cons (.var "arg") (.cons (.arrow (.var "root") "data") .nil))),
      .expr (.call "tommy_tree_foreach_arg_node" (.cons (.var "next") (.cons (.var "func") (.cons (.var "arg") .nil))))]) }

/-- tommytree.c:283-286
```
    void tommy_tree_foreach_arg(tommy_tree* tree, tommy_foreach_arg_func* func, void* arg)
    {
      tommy_tree_foreach_arg_node(tree->root, func, arg);
    }
```
-/
def f_tommy_tree_foreach_arg : Fun :=
  { ret := .void
    params := [("tree", .ptr (.struct "tommy_tree_struct")), ("func", .ptr .fn), ("arg", .ptr .void)]
    body := (.list [
      .expr (.call "tommy_tree_foreach_arg_node" (.cons (.arrow (.var "tree") "root") (.cons (.var "func") (.cons (.var "arg") .nil))))]) }

/-- tommytree.c:288-291
```
    tommy_size_t tommy_tree_memory_usage(tommy_tree* tree)
    {
      return tommy_tree_count(tree) * sizeof(tommy_tree_node);
    }
```
-/
def f_tommy_tree_memory_usage : Fun :=
  { ret := .usize
    params := [("tree", .ptr (.struct "tommy_tree_struct"))]
    body := (.list [
      .retE (.bin .mul (.call "tommy_tree_count" (.cons (.var "tree") .nil)) (.sizeT (.struct "tommy_node_struct")))]) }

/-- The functions of the file. -/
def funsTree : List (String × Fun) := [
  ("tommy_tree_count", f_tommy_tree_count),
  ("tommy_tree_init", f_tommy_tree_init),
  ("tommy_tree_delta", f_tommy_tree_delta),
  ("tommy_tree_rotate_left", f_tommy_tree_rotate_left),
  ("tommy_tree_rotate_right", f_tommy_tree_rotate_right),
  ("tommy_tree_move_right", f_tommy_tree_move_right),
  ("tommy_tree_balance", f_tommy_tree_balance),
  ("tommy_tree_insert_node", f_tommy_tree_insert_node),
  ("tommy_tree_insert", f_tommy_tree_insert),
  ("tommy_tree_remove_node", f_tommy_tree_remove_node),
  ("tommy_tree_remove", f_tommy_tree_remove),
  ("tommy_tree_search_node", f_tommy_tree_search_node),
  ("tommy_tree_search", f_tommy_tree_search),
  ("tommy_tree_search_compare", f_tommy_tree_search_compare),
  ("tommy_tree_remove_existing", f_tommy_tree_remove_existing),
  ("tommy_tree_foreach_node", f_tommy_tree_foreach_node),
  ("tommy_tree_foreach", f_tommy_tree_foreach),
  ("tommy_tree_foreach_arg_node", f_tommy_tree_foreach_arg_node),
  ("tommy_tree_foreach_arg", f_tommy_tree_foreach_arg),
  ("tommy_tree_memory_usage", f_tommy_tree_memory_usage)]

/-- The structs of the file. -/
def structsTree : List (String × List (String × CTy)) := [
  ("tommy_tree_struct", s_tommy_tree_struct)]

end Tommy.C.Src
