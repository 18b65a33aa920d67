import Verif.C.SrcTypes
/-
  Written by tools/c2lean.py from tommylist.h. Not to be changed.
-/
set_option autoImplicit false
namespace Tommy.C.Src

variable [a : Arch]

/-- tommylist.h:114-117
```
    tommy_inline void tommy_list_init(tommy_list* list)
    {
      *list = 0;
    }
```
-/
def f_tommy_list_init : Fun :=
  { ret := .void
    params := [("list", .ptr (.ptr (.struct "tommy_node_struct")))]
    body := (.list [
      .expr (.assign (.deref (.var "list")) (.num 0))]) }

/-- tommylist.h:123-126
```
    tommy_inline tommy_node* tommy_list_head(tommy_list* list)
    {
      return *list;
    }
```
-/
def f_tommy_list_head : Fun :=
  { ret := .ptr (.struct "tommy_node_struct")
    params := [("list", .ptr (.ptr (.struct "tommy_node_struct")))]
    body := (.list [
      .retE (.deref (.var "list"))]) }

/-- tommylist.h:132-140
```
    tommy_inline tommy_node* tommy_list_tail(tommy_list* list)
    {
      tommy_node* head = tommy_list_head(list);
      if (!head)
        return 0;
      return head->prev;
    }
```
-/
def f_tommy_list_tail : Fun :=
  { ret := .ptr (.struct "tommy_node_struct")
    params := [("list", .ptr (.ptr (.struct "tommy_node_struct")))]
    body := (.list [
      .declInit (.ptr (.struct "tommy_node_struct")) "head" (.call "tommy_list_head" (.cons (.var "list") .nil)),
      .ite (.lnot (.var "head"))
        (.retE (.num 0))
        .skip,
      .retE (.arrow (.var "head") "prev")]) }

/-- tommylist.h:147-156
```
    tommy_inline void tommy_list_insert_first(tommy_list* list, tommy_node* node)
    {
      node->prev = node;
      node->next = 0;
      *list = node;
    }
```
-/
def f_tommy_list_insert_first : Fun :=
  { ret := .void
    params := [("list", .ptr (.ptr (.struct "tommy_node_struct"))), ("node", .ptr (.struct "tommy_node_struct"))]
    body := (.list [
      .expr (.assign (.arrow (.var "node") "prev") (.var "node")),
      .expr (.assign (.arrow (.var "node") "next") (.num 0)),
      .expr (.assign (.deref (.var "list")) (.var "node"))]) }

/-- tommylist.h:164-176
```
    tommy_inline void tommy_list_insert_head_not_empty(tommy_list* list, tommy_node* node)
    {
      tommy_node* head = tommy_list_head(list);
      node->prev = head->prev;
      head->prev = node;
      node->next = head;
      *list = node;
    }
```
-/
def f_tommy_list_insert_head_not_empty : Fun :=
  { ret := .void
    params := [("list", .ptr (.ptr (.struct "tommy_node_struct"))), ("node", .ptr (.struct "tommy_node_struct"))]
    body := (.list [
      .declInit (.ptr (.struct "tommy_node_struct")) "head" (.call "tommy_list_head" (.cons (.var "list") .nil)),
      .expr (.assign (.arrow (.var "node") "prev") (.arrow (.var "head") "prev")),
      .expr (.assign (.arrow (.var "head") "prev") (.var "node")),
      .expr (.assign (.arrow (.var "node") "next") (.var "head")),
      .expr (.assign (.deref (.var "list")) (.var "node"))]) }

/-- tommylist.h:184-193
```
    tommy_inline void tommy_list_insert_tail_not_empty(tommy_node* head, tommy_node* node)
    {
      node->prev = head->prev;
      head->prev = node;
      node->next = 0;
      node->prev->next = node;
    }
```
-/
def f_tommy_list_insert_tail_not_empty : Fun :=
  { ret := .void
    params := [("head", .ptr (.struct "tommy_node_struct")), ("node", .ptr (.struct "tommy_node_struct"))]
    body := (.list [
      .expr (.assign (.arrow (.var "node") "prev") (.arrow (.var "head") "prev")),
      .expr (.assign (.arrow (.var "head") "prev") (.var "node")),
      .expr (.assign (.arrow (.var "node") "next") (.num 0)),
      .expr (.assign (.arrow (.arrow (.var "node") "prev") "next") (.var "node"))]) }

/-- tommylist.h:200-210
```
    tommy_inline void tommy_list_insert_head(tommy_list* list, tommy_node* node, void* data)
    {
      tommy_node* head = tommy_list_head(list);
      if (head)
        tommy_list_insert_head_not_empty(list, node);
      else
        tommy_list_insert_first(list, node);
      node->data = data;
    }
```
-/
def f_tommy_list_insert_head : Fun :=
  { ret := .void
    params := [("list", .ptr (.ptr (.struct "tommy_node_struct"))), ("node", .ptr (.struct "tommy_node_struct")), ("data", .ptr .void)]
    body := (.list [
      .declInit (.ptr (.struct "tommy_node_struct")) "head" (.call "tommy_list_head" (.cons (.var "list") .nil)),
      .ite (.var "head")
        (.expr (.call "tommy_list_insert_head_not_empty" (.cons (.var "list") (.cons (.var "node") .nil))))
        (.expr (.call "tommy_list_insert_first" (.cons (.var "list") (.cons (.var "node") .nil)))),
      .expr (.assign (.arrow (.var "node") "data") (.var "data"))]) }

/-- tommylist.h:217-227
```
    tommy_inline void tommy_list_insert_tail(tommy_list* list, tommy_node* node, void* data)
    {
      tommy_node* head = tommy_list_head(list);
      if (head)
        tommy_list_insert_tail_not_empty(head, node);
      else
        tommy_list_insert_first(list, node);
      node->data = data;
    }
```
-/
def f_tommy_list_insert_tail : Fun :=
  { ret := .void
    params := [("list", .ptr (.ptr (.struct "tommy_node_struct"))), ("node", .ptr (.struct "tommy_node_struct")), ("data", .ptr .void)]
    body := (.list [
      .declInit (.ptr (.struct "tommy_node_struct")) "head" (.call "tommy_list_head" (.cons (.var "list") .nil)),
      .ite (.var "head")
        (.expr (.call "tommy_list_insert_tail_not_empty" (.cons (.var "head") (.cons (.var "node") .nil))))
        (.expr (.call "tommy_list_insert_first" (.cons (.var "list") (.cons (.var "node") .nil)))),
      .expr (.assign (.arrow (.var "node") "data") (.var "data"))]) }

/-- tommylist.h:237-254
```
    tommy_inline void* tommy_list_remove_existing(tommy_list* list, tommy_node* node)
    {
      tommy_node* head = tommy_list_head(list);
      if (node->next)
        node->next->prev = node->prev;
      else
        head->prev = node->prev;
      if (head == node)
        *list = node->next;
      else
        node->prev->next = node->next;
      return node->data;
    }
```
-/
def f_tommy_list_remove_existing : Fun :=
  { ret := .ptr .void
    params := [("list", .ptr (.ptr (.struct "tommy_node_struct"))), ("node", .ptr (.struct "tommy_node_struct"))]
    body := (.list [
      .declInit (.ptr (.struct "tommy_node_struct")) "head" (.call "tommy_list_head" (.cons (.var "list") .nil)),
      .ite (.arrow (.var "node") "next")
        (.expr (.assign (.arrow (.arrow (.var "node") "next") "prev") (.arrow (.var "node") "prev")))
        (.expr (.assign (.arrow (.var "head") "prev") (.arrow (.var "node") "prev"))),
      .ite (.bin .eq (.var "head") (.var "node"))
        (.expr (.assign (.deref (.var "list")) (.arrow (.var "node") "next")))
        (.expr (.assign (.arrow (.arrow (.var "node") "prev") "next") (.arrow (.var "node") "next"))),
      .retE (.arrow (.var "node") "data")]) }

/-- tommylist.h:263-290
```
    tommy_inline void tommy_list_concat(tommy_list* first, tommy_list* second)
    {
      tommy_node* first_head;
      tommy_node* first_tail;
      tommy_node* second_head;
      second_head = tommy_list_head(second);
      if (second_head == 0)
        return;
      first_head = tommy_list_head(first);
      if (first_head == 0) {
        *first = *second;
        return;
      }
      first_tail = first_head->prev;
      first_head->prev = second_head->prev;
      second_head->prev = first_tail;
      first_tail->next = second_head;
    }
```
-/
def f_tommy_list_concat : Fun :=
  { ret := .void
    params := [("first", .ptr (.ptr (.struct "tommy_node_struct"))), ("second", .ptr (.ptr (.struct "tommy_node_struct")))]
    body := (.list [
      .decl (.ptr (.struct "tommy_node_struct")) "first_head",
      .decl (.ptr (.struct "tommy_node_struct")) "first_tail",
      .decl (.ptr (.struct "tommy_node_struct")) "second_head",
      .expr (.assign (.var "second_head") (.call "tommy_list_head" (.cons (.var "second") .nil))),
      .ite (.bin .eq (.var "second_head") (.num 0))
        .ret
        .skip,
      .expr (.assign (.var "first_head") (.call "tommy_list_head" (.cons (.var "first") .nil))),
      .ite (.bin .eq (.var "first_head") (.num 0))
        (.block (.list [
          .expr (.assign (.deref (.var "first")) (.deref (.var "second"))),
          .ret]))
        .skip,
      .expr (.assign (.var "first_tail") (.arrow (.var "first_head") "prev")),
      .expr (.assign (.arrow (.var "first_head") "prev") (.arrow (.var "second_head") "prev")),
      .expr (.assign (.arrow (.var "second_head") "prev") (.var "first_tail")),
      .expr (.assign (.arrow (.var "first_tail") "next") (.var "second_head"))]) }

/-- tommylist.h:305-308
```
    tommy_inline tommy_bool_t tommy_list_empty(tommy_list* list)
    {
      return tommy_list_head(list) == 0;
    }
```
-/
def f_tommy_list_empty : Fun :=
  { ret := .s32
    params := [("list", .ptr (.ptr (.struct "tommy_node_struct")))]
    body := (.list [
      .retE (.bin .eq (.call "tommy_list_head" (.cons (.var "list") .nil)) (.num 0))]) }

/-- tommylist.h:314-325
```
    tommy_inline tommy_size_t tommy_list_count(tommy_list* list)
    {
      tommy_size_t count = 0;
      tommy_node* i = tommy_list_head(list);
      while (i) {
        ++count;
        i = i->next;
      }
      return count;
    }
```
-/
def f_tommy_list_count : Fun :=
  { ret := .usize
    params := [("list", .ptr (.ptr (.struct "tommy_node_struct")))]
    body := (.list [
      .declInit .usize "count" (.num 0),
      .declInit (.ptr (.struct "tommy_node_struct")) "i" (.call "tommy_list_head" (.cons (.var "list") .nil)),
      .while (.var "i")
        (.block (.list [
          .expr (.assignOp .add (.var "count") (.num 1)),
          .expr (.assign (.var "i") (.arrow (.var "i") "next"))])),
      .retE (.var "count")]) }

/-- tommylist.h:355-364
```
    tommy_inline void tommy_list_foreach(tommy_list* list, tommy_foreach_func* func)
    {
      tommy_node* node = tommy_list_head(list);
      while (node) {
        void* data = node->data;
        node = node->next;
        func(data);
      }
    }
```
-/
def f_tommy_list_foreach : Fun :=
  { ret := .void
    params := [("list", .ptr (.ptr (.struct "tommy_node_struct"))), ("func", .ptr .fn)]
    body := (.list [
      .declInit (.ptr (.struct "tommy_node_struct")) "node" (.call "tommy_list_head" (.cons (.var "list") .nil)),
      .while (.var "node")
        (.block (.list [
          .declInit (.ptr .void) "data" (.arrow (.var "node") "data"),
          .expr (.assign (.var "node") (.arrow (.var "node") "next")),
          .expr (.call "func" (.cons (.var "data") .nil))]))]) }

/-- tommylist.h:369-378
```
    tommy_inline void tommy_list_foreach_arg(tommy_list* list, tommy_foreach_arg_func* func, void* arg)
    {
      tommy_node* node = tommy_list_head(list);
      while (node) {
        void* data = node->data;
        node = node->next;
        func(arg, data);
      }
    }
```
-/
def f_tommy_list_foreach_arg : Fun :=
  { ret := .void
    params := [("list", .ptr (.ptr (.struct "tommy_node_struct"))), ("func", .ptr .fn), ("arg", .ptr .void)]
    body := (.list [
      .declInit (.ptr (.struct "tommy_node_struct")) "node" (.call "tommy_list_head" (.cons (.var "list") .nil)),
      .while (.var "node")
        (.block (.list [
          .declInit (.ptr .void) "data" (.arrow (.var "node") "data"),
          .expr (.assign (.var "node") (.arrow (.var "node") "next")),
          .expr (.call "func" (.cons (.var "arg") (.cons (.var "data") .nil)))]))]) }

/-- The functions of the file. -/
def funsList : List (String × Fun) := [
  ("tommy_list_init", f_tommy_list_init),
  ("tommy_list_head", f_tommy_list_head),
  ("tommy_list_tail", f_tommy_list_tail),
  ("tommy_list_insert_first", f_tommy_list_insert_first),
  ("tommy_list_insert_head_not_empty", f_tommy_list_insert_head_not_empty),
  ("tommy_list_insert_tail_not_empty", f_tommy_list_insert_tail_not_empty),
  ("tommy_list_insert_head", f_tommy_list_insert_head),
  ("tommy_list_insert_tail", f_tommy_list_insert_tail),
  ("tommy_list_remove_existing", f_tommy_list_remove_existing),
  ("tommy_list_concat", f_tommy_list_concat),
  ("tommy_list_empty", f_tommy_list_empty),
  ("tommy_list_count", f_tommy_list_count),
  ("tommy_list_foreach", f_tommy_list_foreach),
  ("tommy_list_foreach_arg", f_tommy_list_foreach_arg)]

/-- The structs of the file. -/
def structsList : List (String × List (String × CTy)) := [
]

end Tommy.C.Src
