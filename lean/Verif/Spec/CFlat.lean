import Verif.C.Prog
import Verif.Spec.HashFlat
/-!
  Specification of a program which uses the hashtables as they are written in C (C76): the program, its memory, and what it can do and see are
  the ones of C75; the calls execute the text of the functions of the library, translated in `Verif/C/Src*.lean`, with the meaning of
  `Verif/C/Sem.lean`.
-/
set_option autoImplicit false
namespace Tommy

variable [Arch]
namespace CFlatSpec
open HashFlatSpec
open C (Val Ext CTy)

/-- The struct of a table. -/
def tyOf : Ty → CTy
  | .hashtable => .struct "tommy_hashtable_struct"
  | .hashdyn => .struct "tommy_hashdyn_struct"
  | .hashlin => .struct "tommy_hashlin_struct"

/-- The pointers given to the functions. -/
def pTab (ty : Ty) (t : Nat) : Val := ⟨.ptr (tyOf ty), t⟩
def pNode (p : Nat) : Val := ⟨.ptr (.struct "tommy_node_struct"), p⟩
def pVoid (p : Nat) : Val := ⟨.ptr .void, p⟩
def pFunc (p : Nat) : Val := ⟨.ptr .fn, p⟩
def size (n : Nat) : Val := ⟨.usize, n⟩

/-- The call of the function of the library with the given name for each table. -/
def fn (ext : Ext) (ty : Ty) (tbl dyn lin : String) (vs : List Val) : BM Val :=
  C.run ext (match ty with | .hashtable => tbl | .hashdyn => dyn | .hashlin => lin) vs

/-- No function is called by a pointer. -/
def noExt : Ext := fun _ _ => C.fail

/-- The comparison function `cmp` of the client at the address `f`: called with the argument `arg` and a payload, it returns an int. -/
def cmpExt (f arg : Nat) (cmp : Nat → Int) : Ext := fun g vs =>
  match vs with
  | [x, d] => if g = f ∧ x.ty = .ptr .void ∧ x.v = arg ∧ d.ty = .ptr .void then pure ⟨.s32, (cmp d.v % (2 ^ 32 : Nat)).toNat⟩ else C.fail
  | _ => C.fail

/-- free() at the address `f`. -/
def freeExt (f : Nat) : Ext := fun g vs =>
  match vs with
  | [d] => if g = f ∧ d.ty = .ptr .void then do bfree d.v; return ⟨.void, 0⟩ else C.fail
  | _ => C.fail

def cinit (ty : Ty) (t n : Nat) : BM Val :=
  fn noExt ty "tommy_hashtable_init" "tommy_hashdyn_init" "tommy_hashlin_init" (match ty with
    | .hashtable => [pTab ty t, size n]
    | _ => [pTab ty t])

def cdone (ty : Ty) (t : Nat) : BM Val :=
  fn noExt ty "tommy_hashtable_done" "tommy_hashdyn_done" "tommy_hashlin_done" [pTab ty t]

def cusage (ty : Ty) (t : Nat) : BM Val :=
  fn noExt ty "tommy_hashtable_memory_usage" "tommy_hashdyn_memory_usage" "tommy_hashlin_memory_usage" [pTab ty t]

/-- foreach with free(), then done. -/
def cfreeAll (f : Nat) (ty : Ty) (t : Nat) : BM Val := do
  let _ ← fn (freeExt f) ty "tommy_hashtable_foreach" "tommy_hashdyn_foreach" "tommy_hashlin_foreach" [pTab ty t, pFunc f]
  cdone ty t

/-- A call, with the comparison function at the address `f` and its argument `arg`. -/
def ccall (f arg : Nat) (ty : Ty) (t : Nat) : HashSpec.Op → BM HashSpec.Out
  | .insert p d h => do
    let _ ← fn noExt ty "tommy_hashtable_insert" "tommy_hashdyn_insert" "tommy_hashlin_insert" [pTab ty t, pNode p, pVoid d, size h]
    return .unit
  | .remove cmp h => do
    let v ← fn (cmpExt f arg cmp) ty "tommy_hashtable_remove" "tommy_hashdyn_remove" "tommy_hashlin_remove"
      [pTab ty t, pFunc f, pVoid arg, size h]
    return .val v.v
  | .removeExisting p => do
    let v ← fn noExt ty "tommy_hashtable_remove_existing" "tommy_hashdyn_remove_existing" "tommy_hashlin_remove_existing" [pTab ty t, pNode p]
    return .val v.v
  | .search cmp h => do
    let v ← fn (cmpExt f arg cmp) ty "tommy_hashtable_search" "tommy_hashdyn_search" "tommy_hashlin_search"
      [pTab ty t, pFunc f, pVoid arg, size h]
    return .val v.v
  | .bucket h => do
    let v ← fn noExt ty "tommy_hashtable_bucket" "tommy_hashdyn_bucket" "tommy_hashlin_bucket" [pTab ty t, size h]
    let l ← bwalkLoop v.v []
    return .elems l
  | .count => do
    let v ← fn noExt ty "tommy_hashtable_count" "tommy_hashdyn_count" "tommy_hashlin_count" [pTab ty t]
    return .val v.v
  | _ => C.fail

/-- Execution, with the function of the client at the address `f`, and its argument `arg`. -/
def step (f arg : Nat) : Op → StateT AMem Option Out
  | .init t ty n m c => HashFlatSpec.run (cinit ty t n) m c fun _ => .unit
  | .call t ty op m c => HashFlatSpec.run (ccall f arg ty t op) m c id
  | .usage t ty => HashFlatSpec.run (cusage ty t) 0 (fun _ => 0) fun v => .val v.v
  | .done t ty => HashFlatSpec.run (cdone ty t) 0 (fun _ => 0) fun _ => .unit
  | .destroy t ty => HashFlatSpec.run (cfreeAll f ty t) 0 (fun _ => 0) fun _ => .unit
  /- the rest of the program -/
  | op => HashFlatSpec.step op

/-- The comparison function returns an int. -/
def IsInt (cmp : Nat → Int) : Prop := ∀ d, -2 ^ 31 ≤ cmp d ∧ cmp d < 2 ^ 31

/-- What the program may do: as in C75, with the values that are in the C types. -/
def legal (a : Ab) (op : Op) : Prop := HashFlatSpec.legal a op ∧ match op with
  | .call _ _ op _ c => (∀ x, c x < 256) ∧ match op with
    | .remove cmp _ | .search cmp _ => IsInt cmp
    | _ => True
  | _ => True

/-- The calls return what they return in C75. -/
def sys (f arg : Nat) : Sys AMem Ab Op Out where
  init := HashFlatSpec.sys.init
  step := step f arg
  legal := legal
  allowed := HashFlatSpec.allowed
  next := HashFlatSpec.next

end CFlatSpec
end Tommy
