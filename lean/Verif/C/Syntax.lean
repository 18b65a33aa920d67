import Verif.Model.Arch
/-
  The syntax of the part of the C language used by the library. The functions of the library are translated in it, one by one and
  without changes, by `tools/c2lean.py` (`Verif/C/Src*.lean`).
-/
set_option autoImplicit false
namespace Tommy.C

/-- The types. `usize` is `tommy_size_t` and `size_t`, `ssize` is `tommy_ssize_t` and `ptrdiff_t`, `fn` is a function, whatever its type is. -/
inductive CTy
  | void
  | u8
  | u32
  | s32
  | u64
  | usize
  | ssize
  | fn
  | struct (name : String)
  | ptr (t : CTy)
  | arr (t : CTy) (n : Nat)
deriving DecidableEq, Repr

inductive Bin
  | add | sub | mul | div | mod
  | and | or | xor | shl | shr
  | eq | ne | lt | gt | le | ge
deriving DecidableEq, Repr

mutual

inductive Expr
  /-- An integer constant, of type int. -/
  | num (n : Nat)
  /-- An integer constant of another type. -/
  | lit (t : CTy) (n : Nat)
  | var (x : String)
  /-- `&e`; and `p + i`, with `p` a pointer, is `&p[i]` (ISO 6.5.2.1) -/
  | addr (e : Expr)
  /-- `*e` -/
  | deref (e : Expr)
  /-- `e->f` -/
  | arrow (e : Expr) (f : String)
  /-- `e.f` -/
  | dot (e : Expr) (f : String)
  /-- `a[i]` -/
  | index (a i : Expr)
  /-- `(t)e` -/
  | cast (t : CTy) (e : Expr)
  /-- `sizeof(t)` -/
  | sizeT (t : CTy)
  /-- `sizeof(e)` -/
  | sizeE (e : Expr)
  /-- `!e` -/
  | lnot (e : Expr)
  /-- `-e` -/
  | neg (e : Expr)
  /-- `~e` -/
  | bnot (e : Expr)
  | bin (op : Bin) (a b : Expr)
  /-- `a && b` -/
  | land (a b : Expr)
  /-- `a || b` -/
  | lor (a b : Expr)
  /-- `c ? a : b` -/
  | cond (c a b : Expr)
  /-- `l = r` -/
  | assign (l r : Expr)
  /-- `l op= r`; and `++l`, `--l` are `l += 1`, `l -= 1` (ISO 6.5.3.1) -/
  | assignOp (op : Bin) (l r : Expr)
  /-- `f(args)`, with `f` a function, or a variable which is a pointer to a function -/
  | call (f : String) (args : Args)

inductive Args
  | nil
  | cons (e : Expr) (es : Args)

end

inductive Stmt
  | skip
  | seq (a b : Stmt)
  | expr (e : Expr)
  /-- `t x;` -/
  | decl (t : CTy) (x : String)
  /-- `t x = e;` -/
  | declInit (t : CTy) (x : String) (e : Expr)
  /-- `{ s }` -/
  | block (s : Stmt)
  | ite (c : Expr) (a b : Stmt)
  /-- `while (c) s` -/
  | while (c : Expr) (s : Stmt)
  /-- `for (init; c; step) s` -/
  | for (init c step : Expr) (s : Stmt)
  /-- `do s while (c);` -/
  | doWhile (s : Stmt) (c : Expr)
  /-- `switch (e) { s }`, with `s` a sequence of `case` -/
  | switch (e : Expr) (s : Stmt)
  /-- `case n: s`, with `s` all the statements up to the next label -/
  | case (n : Nat) (s : Stmt)
  | break
  | ret
  | retE (e : Expr)
  /- a variable whose address is taken, and the statements until the end of its block; in them `x` is the pointer to the variable -/
  | scope (x : String) (t : CTy) (a : Stmt)

/-- `ret f(params) { body }` -/
structure Fun where
  ret : CTy
  params : List (String × CTy)
  body : Stmt

/-- A sequence of statements. -/
def Stmt.list : List Stmt → Stmt
  | [] => .skip
  | [s] => s
  | s :: ss => .seq s (Stmt.list ss)

end Tommy.C
