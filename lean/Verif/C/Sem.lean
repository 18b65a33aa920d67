import Verif.Model.HashFlat
import Verif.C.Syntax
/-
  The meaning of the part of the C language used by the library, on the memory of bytes of `Verif.Model.HashFlat`.

  It is the one of ISO C for the two usual ABIs: little endian, pointers and `size_t` of 32 or 64 bits, int of 32 bits, two's complement
  (`Arch`). `none` is undefined behaviour, a failed assert(), or a call which does not terminate. Choices, and limits:

  * the order of evaluation is from left to right, and in the assignments the right side is the first;
  * a function is called by a pointer with any address; what it does is a parameter (`ext`);
  * the local variables are not in memory, except the ones whose address is taken, that are at an address which is given as the ones of malloc();
    the read of one of these before it is written is not an error;
  * the value of `c ? a : b` has the type of the one of `a` and `b` which is evaluated;
  * a computation of a pointer out of an object is accepted, also if it wraps around (see DESIGN.md, 3);
  * an access must be inside a live region of the memory, but it is not required to be aligned, or to have the type of the object.
-/
set_option autoImplicit false
namespace Tommy.C

variable [Arch]

/-- A value: its type, and the number whose bits are the ones of the value. -/
structure Val where
  ty : CTy
  v : Nat

/-! ### Types -/

/-- The number of bits of the scalar types. -/
def CTy.bits : CTy → Nat
  | .u8 => 8
  | .u32 | .s32 => 32
  | .u64 => 64
  | .usize | .ssize | .ptr _ => sizeBit
  | _ => 0

def CTy.signed : CTy → Bool
  | .s32 | .ssize => true
  | _ => false

def CTy.isPtr : CTy → Bool
  | .ptr _ => true
  | _ => false

/-- The structs: the name and the type of the fields. -/
abbrev Structs := String → Option (List (String × CTy))

/-- `n` rounded up to a multiple of `a`. -/
def alignUp (n a : Nat) : Nat := (n + a - 1) / a * a

/-- The end of the fields which start at `off`, the alignment, and the offset of each one, with `lay` the size and the alignment of the types. -/
def fields (lay : CTy → Option (Nat × Nat)) (off al : Nat) : List (String × CTy) → Option (Nat × Nat × List (String × CTy × Nat))
  | [] => some (off, al, [])
  | (f, t) :: fs => do
    let (s, a) ← lay t
    let (e, al, l) ← fields lay (alignUp off a + s) (max al a) fs
    return (e, al, (f, t, alignUp off a) :: l)

/-- sizeof() and alignment of a type with at most `k` arrays and structs one in the other. -/
def layout (S : Structs) : Nat → CTy → Option (Nat × Nat)
  | _, .u8 => some (1, 1)
  | _, .u32 | _, .s32 => some (4, 4)
  | _, .u64 => some (8, 8)
  | _, .usize | _, .ssize | _, .ptr _ => some (ptrSize, ptrSize)
  | k + 1, .arr t n => do
    let (s, a) ← layout S k t
    return (n * s, a)
  | k + 1, .struct name => do
    let fs ← S name
    let (off, a, _) ← fields (layout S k) 0 1 fs
    return (alignUp off a, a)
  | _, _ => none

/-- sizeof() -/
def size (S : Structs) (t : CTy) : Option Nat := do
  let (s, _) ← layout S 8 t
  return s

/-- The type and the offset of a field. -/
def field (S : Structs) (s f : String) : Option (CTy × Nat) := do
  let fs ← S s
  let (_, _, l) ← fields (layout S 7) 0 1 fs
  l.lookup f

/-! ### Arithmetic -/

/-- The integer with the bits of `v`. -/
def Val.int (v : Val) : Int := if v.ty.signed ∧ 2 ^ (v.ty.bits - 1) ≤ v.v then (v.v : Int) - 2 ^ v.ty.bits else v.v

/-- Conversion to a type (ISO 6.3): the same integer modulo the power of two; pointers are converted to pointers. -/
def conv (t : CTy) (v : Val) : Val :=
  if t = v.ty then v
  else if t.isPtr ∧ v.ty.isPtr then ⟨t, v.v⟩
  else ⟨t, (v.int % (2 ^ t.bits : Nat)).toNat⟩

/-- Integer promotions (ISO 6.3.1.1). -/
def promote : CTy → CTy
  | .u8 => .s32
  | t => t

/-- The usual arithmetic conversions (ISO 6.3.1.8). In the 32 bit build `usize` and `u32` are the same type. The operands `ssize` and `u32` are not
    used. -/
def common : CTy → CTy → Option CTy
  | .s32, .s32 => some .s32
  | .s32, .u32 | .u32, .s32 | .u32, .u32 => some .u32
  | .ssize, .s32 | .s32, .ssize | .ssize, .ssize => some .ssize
  | .usize, .s32 | .s32, .usize | .usize, .u32 | .u32, .usize | .usize, .ssize | .ssize, .usize | .usize, .usize => some .usize
  | .u64, .s32 | .s32, .u64 | .u64, .u32 | .u32, .u64 | .u64, .u64 => some .u64
  | .ptr t, .ptr _ => some (.ptr t)
  | .ptr t, .s32 | .s32, .ptr t => some (.ptr t)
  | _, _ => none

/-- An integer of the type `t`: the arithmetic of unsigned types is modular, for signed types an overflow is undefined. -/
def result (t : CTy) (n : Int) : Option Val :=
  if t.signed then
    if -(2 ^ (t.bits - 1) : Nat) ≤ n ∧ n < (2 ^ (t.bits - 1) : Nat) then some ⟨t, (n % (2 ^ t.bits : Nat)).toNat⟩ else none
  else some ⟨t, (n % (2 ^ t.bits : Nat)).toNat⟩

def bool (b : Bool) : Val := ⟨.s32, if b then 1 else 0⟩

/-- The operators on two operands already converted to the common type `t`. -/
def arith (op : Bin) (t : CTy) (a b : Val) : Option Val :=
  match op with
  | .eq => some (bool (a.v = b.v))
  | .ne => some (bool (a.v ≠ b.v))
  | _ => if t.isPtr then none else match op with
    | .lt => some (bool (a.int < b.int))
    | .gt => some (bool (a.int > b.int))
    | .le => some (bool (a.int ≤ b.int))
    | .ge => some (bool (a.int ≥ b.int))
    | .add => result t (a.int + b.int)
    | .sub => result t (a.int - b.int)
    | .mul => result t (a.int * b.int)
    | .div => if b.v = 0 then none else result t (a.int.tdiv b.int)
    | .mod => if b.v = 0 then none else result t (a.int.tmod b.int)
    | .and => some ⟨t, a.v &&& b.v⟩
    | .or => some ⟨t, a.v ||| b.v⟩
    | .xor => some ⟨t, a.v ^^^ b.v⟩
    | _ => none

/-- `a op b` -/
def binop (op : Bin) (a b : Val) : Option Val :=
  match op with
  | .shl | .shr => do
    let t := promote a.ty
    let a := conv t a
    /- the amount of the shift must be less than the bits, and a signed operand not negative (ISO 6.5.7) -/
    if b.int < 0 ∨ t.bits ≤ b.int ∨ a.int < 0 then none
    if op = .shl then result t (a.int * (2 ^ b.int.toNat : Nat))
    else result t (a.int / (2 ^ b.int.toNat : Nat))
  | _ => do
    let t ← common (promote a.ty) (promote b.ty)
    arith op t (conv t a) (conv t b)

/-- `~a` -/
def bnot (a : Val) : Val := ⟨promote a.ty, 2 ^ (promote a.ty).bits - 1 - (conv (promote a.ty) a).v⟩

/-- `&p[i]` with elements of `n` bytes -/
def elemAddr (p n : Nat) (i : Val) : Nat := (((p : Int) + n * i.int) % (2 ^ sizeBit : Nat)).toNat

/-! ### Variables -/

/-- The local variables: the type, and the value or the values if it is an array. `none` is a value not initialised. -/
abbrev Env := List (String × CTy × List (Option Nat))

/-- Comparison of names. -/
def sameName (x y : String) : Bool := x == y

def Env.get : Env → String → Option (CTy × List (Option Nat))
  | [], _ => none
  | (y, b) :: e, x => bif sameName y x then some b else Env.get e x

def Env.set : Env → String → Nat → Nat → Env
  | [], _, _, _ => []
  | (y, t, l) :: e, x, i, v => bif sameName y x then (y, t, l.set i (some v)) :: e else (y, t, l) :: Env.set e x i v

/-- A new variable. -/
def Env.decl (e : Env) (t : CTy) (x : String) : Env := match t with
  | .arr s n => (x, .arr s n, List.replicate n none) :: e
  | t => (x, t, [none]) :: e

/-- The place of a value. -/
inductive Place
  | mem (p : Nat)
  | reg (x : String) (i : Nat)

/-- Undefined. -/
def fail {α : Type} : BM α := fun _ => none

def lift {α : Type} : Option α → BM α
  | some x => pure x
  | none => fail

variable (S : Structs)

/-- Read of the value at a place. An array is converted to the pointer to its first element (ISO 6.3.2.1). -/
def load (t : CTy) (p : Place) (e : Env) : BM Val :=
  match p, t with
  | .mem p, .arr t _ => pure ⟨.ptr t, p⟩
  | .mem p, t =>
    if t.bits = 0 then fail else do
      let v ← bgetN (t.bits / 8) p
      return ⟨t, v⟩
  | .reg x i, t => do
    let (_, l) ← lift (e.get x)
    let o ← lift l[i]?
    let v ← lift o
    return ⟨t, v⟩

/-- Write of a value. -/
def store (t : CTy) (p : Place) (v : Val) (e : Env) : BM Env :=
  match p with
  | .mem p =>
    if t.bits = 0 then fail else do
      bsetN (t.bits / 8) p v.v
      return e
  | .reg x i => do
    let (_, l) ← lift (e.get x)
    if i < l.length then return e.set x i v.v else fail

/-- The type of an expression which is not evaluated (the operand of sizeof()). -/
def typeOf (e : Env) : Expr → Option CTy
  | .var x => (e.get x).map Prod.fst
  | .deref a => match typeOf e a with
    | some (.ptr t) => some t
    | _ => none
  | .arrow a f => match typeOf e a with
    | some (.ptr (.struct s)) => (field S s f).map Prod.fst
    | _ => none
  | .index a _ => match typeOf e a with
    | some (.ptr t) | some (.arr t _) => some t
    | _ => none
  | _ => none

/-! ### Expressions -/

/-- What the functions called by a pointer do. -/
abbrev Ext := Nat → List Val → BM Val

variable (ext : Ext) (call : String → List Val → BM Val)

/-- The result of an expression: a value, or an object (an lvalue). -/
inductive Res
  | val (v : Val)
  | obj (t : CTy) (p : Place)

/-- The value of a result. -/
def Res.get (r : Res) (e : Env) : BM Val :=
  match r with
  | .val v => pure v
  | .obj t p => load t p e

mutual

/-- Evaluation of an expression. -/
def ev : Expr → Env → BM (Res × Env)
  | .num n, e => pure (.val ⟨.s32, n⟩, e)
  | .lit t n, e => pure (.val ⟨t, n⟩, e)
  | .var x, e => do
    let (t, _) ← lift (e.get x)
    return (.obj t (.reg x 0), e)
  | .addr a, e => do
    let (r, e) ← ev a e
    match r with
    | .obj t (.mem p) => return (.val ⟨.ptr t, p⟩, e)
    | _ => fail
  | .deref a, e => do
    let (r, e) ← ev a e
    let v ← r.get e
    match v.ty with
    | .ptr t => return (.obj t (.mem v.v), e)
    | _ => fail
  | .arrow a f, e => do
    let (r, e) ← ev a e
    let v ← r.get e
    match v.ty with
    | .ptr (.struct s) => do
      let (t, o) ← lift (field S s f)
      return (.obj t (.mem (v.v + o)), e)
    | _ => fail
  | .dot a f, e => do
    let (r, e) ← ev a e
    match r with
    | .obj (.struct s) (.mem p) => do
      let (t, o) ← lift (field S s f)
      return (.obj t (.mem (p + o)), e)
    | _ => fail
  | .index a i, e => do
    let (r, e) ← ev a e
    match r with
    | .obj (.arr t n) p => do
      let (ri, e) ← ev i e
      let j ← ri.get e
      let k ← lift (size S t)
      if 0 ≤ j.int ∧ j.int < n then
        match p with
        | .mem p => return (.obj t (.mem (p + k * j.int.toNat)), e)
        | .reg x m => return (.obj t (.reg x (m + j.int.toNat)), e)
      else fail
    | r => do
      let b ← r.get e
      let (ri, e) ← ev i e
      let j ← ri.get e
      match b.ty with
      | .ptr t => do
        let k ← lift (size S t)
        return (.obj t (.mem (elemAddr b.v k j)), e)
      | _ => fail
  | .cast t a, e => do
    let (r, e) ← ev a e
    let v ← r.get e
    return (.val (conv t v), e)
  | .sizeT t, e => do
    let n ← lift (size S t)
    return (.val ⟨.usize, n⟩, e)
  | .sizeE a, e => do
    let t ← lift (typeOf S e a)
    let n ← lift (size S t)
    return (.val ⟨.usize, n⟩, e)
  | .lnot a, e => do
    let (r, e) ← ev a e
    let v ← r.get e
    return (.val (bool (v.v = 0)), e)
  | .neg a, e => do
    let (r, e) ← ev a e
    let v ← r.get e
    let x ← lift (result (promote v.ty) (- v.int))
    return (.val x, e)
  | .bnot a, e => do
    let (r, e) ← ev a e
    let v ← r.get e
    return (.val (bnot v), e)
  | .bin op a b, e => do
    let (r, e) ← ev a e
    let x ← r.get e
    let (r, e) ← ev b e
    let y ← r.get e
    let v ← lift (binop op x y)
    return (.val v, e)
  | .land a b, e => do
    let (r, e) ← ev a e
    let x ← r.get e
    if x.v = 0 then return (.val (bool false), e) else do
      let (r, e) ← ev b e
      let y ← r.get e
      return (.val (bool (y.v ≠ 0)), e)
  | .lor a b, e => do
    let (r, e) ← ev a e
    let x ← r.get e
    if x.v ≠ 0 then return (.val (bool true), e) else do
      let (r, e) ← ev b e
      let y ← r.get e
      return (.val (bool (y.v ≠ 0)), e)
  | .cond c a b, e => do
    let (r, e) ← ev c e
    let x ← r.get e
    if x.v ≠ 0 then do
      let (r, e) ← ev a e
      let y ← r.get e
      return (.val y, e)
    else do
      let (r, e) ← ev b e
      let y ← r.get e
      return (.val y, e)
  | .assign l a, e => do
    let (r, e) ← ev a e
    let v ← r.get e
    let (r, e) ← ev l e
    match r with
    | .obj t p => do
      let e ← store t p (conv t v) e
      return (.val (conv t v), e)
    | _ => fail
  | .assignOp op l a, e => do
    let (r, e) ← ev a e
    let y ← r.get e
    let (r, e) ← ev l e
    match r with
    | .obj t p => do
      let x ← load t p e
      let v ← lift (binop op x y)
      let e ← store t p (conv t v) e
      return (.val (conv t v), e)
    | _ => fail
  | .call f as, e => do
    let (vs, e) ← evArgs as e
    match e.get f with
    | some (t, _) => do
      let p ← load t (.reg f 0) e
      let v ← ext p.v vs
      return (.val v, e)
    | none => do
      let v ← call f vs
      return (.val v, e)

/-- The values of the arguments of a call. -/
def evArgs : Args → Env → BM (List Val × Env)
  | .nil, e => pure ([], e)
  | .cons a as, e => do
    let (r, e) ← ev a e
    let v ← r.get e
    let (vs, e) ← evArgs as e
    return (v :: vs, e)

end

/-- The value of an expression. -/
def eval (a : Expr) (e : Env) : BM (Val × Env) := do
  let (r, e) ← ev S ext call a e
  let v ← r.get e
  return (v, e)

/-! ### Statements -/

/-- How a statement ends. -/
inductive Ctl
  | normal
  | brk
  | ret (v : Option Val)

/-- Repeats `f` until it breaks or returns. -/
def loop (f : Env → BM (Ctl × Env)) (e : Env) : BM (Ctl × Env) := do
  let (c, e) ← f e
  match c with
  | .normal => loop f e
  | .brk => return (.normal, e)
  | .ret v => return (.ret v, e)
partial_fixpoint

/-- The memory for a variable of `n` bytes: its address is not in use, and its content is any. -/
def bstack (n : Nat) : BM Nat := fun w =>
  match w.mallocs with
  | [] => none
  | (b, content) :: ms => some (b, { w with
      mem := { live := upd w.mem.live b (some n)
               byte := fun x => if b ≤ x ∧ x < b + n then content x else w.mem.byte x }
      mallocs := ms })

/-- The end of the variable at `b`. -/
def bunstack (b : Nat) : BM Unit := fun w => some ((), { w with mem := { w.mem with live := upd w.mem.live b none } })

/-- Execution of a statement. -/
def exec : Stmt → Env → BM (Ctl × Env)
  | .skip, e => pure (.normal, e)
  | .seq a b, e => do
    let (c, e) ← exec a e
    match c with
    | .normal => exec b e
    | c => return (c, e)
  | .expr a, e => do
    let (_, e) ← ev S ext call a e
    return (.normal, e)
  | .decl t x, e => pure (.normal, e.decl t x)
  | .declInit t x a, e => do
    let (v, e) ← eval S ext call a e
    return (.normal, (e.decl t x).set x 0 (conv t v).v)
  | .block a, e => do
    let (c, e') ← exec a e
    return (c, e'.drop (e'.length - e.length))
  | .ite c a b, e => do
    let (x, e) ← eval S ext call c e
    if x.v ≠ 0 then exec a e else exec b e
  | .while c a, e => loop (fun e => do
      let (x, e) ← eval S ext call c e
      if x.v ≠ 0 then exec a e else return (.brk, e)) e
  | .for i c s a, e => do
    let (_, e) ← ev S ext call i e
    loop (fun e => do
      let (x, e) ← eval S ext call c e
      if x.v ≠ 0 then do
        let (c, e) ← exec a e
        match c with
        | .normal => do
          let (_, e) ← ev S ext call s e
          return (.normal, e)
        | c => return (c, e)
      else return (.brk, e)) e
  | .doWhile a c, e => loop (fun e => do
      let (r, e) ← exec a e
      match r with
      | .normal => do
        let (x, e) ← eval S ext call c e
        if x.v ≠ 0 then return (.normal, e) else return (.brk, e)
      | r => return (r, e)) e
  /- the value of the switch, and if a label was already found, are kept as a variable whose name is not one of C -/
  | .switch a s, e => do
    let (v, e) ← eval S ext call a e
    let (c, e') ← exec s (("switch", v.ty, [some v.v, some 0]) :: e)
    match c with
    | .brk => return (.normal, e'.drop (e'.length - e.length))
    | c => return (c, e'.drop (e'.length - e.length))
  | .case n a, e => do
    let (_, l) ← lift (e.get "switch")
    match l with
    | [some v, some k] => if k ≠ 0 ∨ v = n then exec a (e.set "switch" 1 1) else return (.normal, e)
    | _ => fail
  | .break, e => pure (.brk, e)
  | .ret, e => pure (.ret none, e)
  | .retE a, e => do
    let (v, e) ← eval S ext call a e
    return (.ret (some v), e)
  | .scope x t a, e => do
    let n ← lift (size S t)
    let p ← bstack n
    let (c, e') ← exec a ((x, .ptr t, [some p]) :: e)
    bunstack p
    return (c, e'.drop (e'.length - e.length))

/-! ### Functions -/

/-- The functions of the C library, and the builtins of the compiler. -/
def builtin (f : String) (vs : List Val) : Option (BM Val) :=
  match f, vs with
  | "malloc", [n] => some do
    let p ← bmalloc (conv .usize n).v
    return ⟨.ptr .void, p⟩
  | "calloc", [n, m] => some do
    let p ← hbcalloc (conv .usize n).v (conv .usize m).v
    return ⟨.ptr .void, p⟩
  | "free", [p] => some do
    bfree p.v
    return ⟨.void, 0⟩
  | "memset", [p, c, n] => some do
    if c.v ≠ 0 then fail
    bzero p.v (conv .usize n).v
    return p
  | "assert", [c] => some do
    if c.v = 0 then fail
    return ⟨.void, 0⟩
  | "__builtin_clz", [x] => some (lift ((builtinClz 32 (conv .u32 x).v).map (⟨.s32, ·⟩)))
  | "__builtin_clzll", [x] => some (lift ((builtinClz 64 (conv .u64 x).v).map (⟨.s32, ·⟩)))
  | "__builtin_ctz", [x] => some (lift ((builtinCtz 32 (conv .u32 x).v).map (⟨.s32, ·⟩)))
  | "__builtin_ctzll", [x] => some (lift ((builtinCtz 64 (conv .u64 x).v).map (⟨.s32, ·⟩)))
  | _, _ => none

/-- The arguments in the parameters. -/
def bindParams : List (String × CTy) → List Val → Option Env
  | [], [] => some []
  | (x, t) :: ps, v :: vs => (bindParams ps vs).map ((x, t, [some (conv t v).v]) :: ·)
  | _, _ => none

/-- Execution of the body of a function. -/
def execFun (d : Fun) (vs : List Val) : BM Val := do
  let e ← lift (bindParams d.params vs)
  let (c, _) ← exec S ext call d.body e
  match c with
  | .ret (some v) => return conv d.ret v
  | .normal | .ret none => if d.ret = .void then return ⟨.void, 0⟩ else fail
  | .brk => fail
