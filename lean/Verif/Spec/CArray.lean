import Verif.C.Prog
import Verif.Spec.Sys
import Mathlib.Data.Nat.Log
/-!
  Specification of a program which uses any number of arrays, of the four types, as they are written in C (C79), in one memory of bytes: the calls
  execute the text of the functions, translated in `Verif/C/SrcArray.lean`, with the meaning of `Verif/C/Sem.lean`.

  The program puts the structs of the arrays at any place of its memory, also in the elements of another array. Between the calls it does
  anything with the rest of the memory: it writes the elements and the other bytes, and it allocates and deallocates memory.
-/
set_option autoImplicit false
namespace Tommy

variable [Arch]
namespace CArraySpec
open C (Val Ext)

/-- The arrays call no function by a pointer. -/
def ext : Ext := fun _ _ => C.fail

/-- The types: tommyarray.h:60-65, tommyarrayof.h:61-67, tommyarrayblk.h:61-64, tommyarrayblkof.h:61-65. -/
inductive Ty
  | array
  | arrayof
  | arrayblk
  | arrayblkof
deriving DecidableEq

def Ty.pick {α : Type} (a b c d : α) : Ty → α
  | .array => a
  | .arrayof => b
  | .arrayblk => c
  | .arrayblkof => d

/-- The elements are pointers. -/
def Ty.ptrs : Ty → Bool := Ty.pick true false true false

/-- The elements are in blocks of 4096. -/
def Ty.blk : Ty → Bool := Ty.pick false false true true

/-- sizeof() of the struct. -/
def Ty.strSize : Ty → Nat := Ty.pick ((sizeBit + 3) * ptrSize) ((sizeBit + 4) * ptrSize) ((sizeBit + 4) * ptrSize) ((sizeBit + 5) * ptrSize)

/-- The pointer to the struct given to the functions. -/
def pArr (ty : Ty) (t : Nat) : Val :=
  ⟨.ptr (.struct (ty.pick "tommy_array_struct" "tommy_arrayof_struct" "tommy_arrayblk_struct" "tommy_arrayblkof_struct")), t⟩

/-- An array: the type, the bytes and the number of the elements, the address of each one, and the memory allocated (address, bytes). -/
structure Vec where
  ty : Ty
  es : Nat
  size : Nat
  addr : Nat → Nat
  own : List (Nat × Nat)

/-- Abstract state: the memory, and the arrays by address of the struct. -/
structure Ab where
  mem : AMem
  tab : Nat → Option Vec

/-- The byte `x` is in an element. -/
def Vec.elem (v : Vec) (x : Nat) : Prop := ∃ pos, pos < v.size ∧ v.addr pos ≤ x ∧ x < v.addr pos + v.es

/-- The byte `x` is only for the library: in the struct at `t`, or allocated and not in an element. -/
def Vec.internal (t : Nat) (v : Vec) (x : Nat) : Prop :=
  (t ≤ x ∧ x < t + v.ty.strSize) ∨ ((∃ r ∈ v.own, r.1 ≤ x ∧ x < r.1 + r.2) ∧ ¬ v.elem x)

/-- The `n` bytes from `p` are in one region. -/
def InReg (w : AMem) (p n : Nat) : Prop := ∃ b k, w.live b = some k ∧ b ≤ p ∧ p + n ≤ b + k

/-- No array uses the `n` bytes from `p`. -/
def Ab.Free (a : Ab) (p n : Nat) : Prop := ∀ x, p ≤ x → x < p + n → ∀ t v, a.tab t = some v → ¬ v.internal t x

/-- A memory: bytes, and disjoint regions in the address space. -/
structure Ok (w : AMem) : Prop where
  byte : ∀ x, w.byte x < 256
  pos : ∀ b n, w.live b = some n → 0 < b ∧ b + n < 2 ^ sizeBit
  reg : ∀ b n b' n', w.live b = some n → w.live b' = some n' → b ≠ b' → b + n ≤ b' ∨ b' + n' ≤ b

/-! ### Allocations -/

/-- malloc() can return `b` for `n` bytes. -/
structure Fresh (live : Nat → Option Nat) (b n : Nat) : Prop where
  pos : 0 < b
  lt : b + n < 2 ^ sizeBit
  none : live b = none
  sep : ∀ b' n', live b' = some n' → b + n ≤ b' ∨ b' + n' ≤ b

/-- malloc() can return `ms` (address and content) for the sizes `ns`, one after the other. -/
def Given : (Nat → Option Nat) → List Nat → List (Nat × (Nat → Nat)) → Prop
  | _, [], [] => True
  | live, n :: ns, m :: ms => Fresh live m.1 n ∧ (∀ x, m.2 x < 256) ∧ Given (upd live m.1 (some n)) ns ms
  | _, _, _ => False

/-- The regions allocated. -/
def regs : List Nat → List (Nat × (Nat → Nat)) → List (Nat × Nat) := List.zipWith fun n m => (m.1, n)

/-- The live regions after. -/
def addRegs (live : Nat → Option Nat) : List (Nat × Nat) → Nat → Option Nat
  | [] => live
  | r :: rs => addRegs (upd live r.1 (some r.2)) rs

/-- The segments of `n` elements have room for `2 ^ bits n`. -/
def bits (n : Nat) : Nat := max 6 (Nat.clog 2 n)

/-- The number of blocks for `n` elements. -/
def blocks (n : Nat) : Nat := (n + 4095) / 4096

/-- The bytes asked to grow segments with elements of `es` bytes from `n` to `n'` elements: the room is doubled until it is enough. -/
def segAsks (es n n' : Nat) : List Nat := (List.range' (bits n) (bits n' - bits n)).map fun k => 2 ^ k * es

/-- The bytes asked by init. -/
def Ty.first (ty : Ty) (es : Nat) : Nat := 64 * if ty.blk then ptrSize else es

/-- The bytes asked to grow to `n` elements. -/
def Vec.asks (v : Vec) (n : Nat) : List Nat :=
  if v.ty.blk then segAsks ptrSize (blocks v.size) (blocks n) ++ List.replicate (blocks n - blocks v.size) (4096 * v.es)
  else segAsks v.es v.size n

/-! ### The program -/

inductive Op
  /- `ms` are the results of malloc(); `es` is the size of the elements -/
  | init (t : Nat) (ty : Ty) (es : Nat) (ms : List (Nat × (Nat → Nat)))
  | grow (t : Nat) (ty : Ty) (n : Nat) (ms : List (Nat × (Nat → Nat)))
  | insert (t : Nat) (ty : Ty) (d : Nat) (ms : List (Nat × (Nat → Nat)))
  | ref (t : Nat) (ty : Ty) (pos : Nat)
  | get (t : Nat) (ty : Ty) (pos : Nat)
  | set (t : Nat) (ty : Ty) (pos d : Nat)
  | size (t : Nat) (ty : Ty)
  | usage (t : Nat) (ty : Ty)
  | done (t : Nat) (ty : Ty)
  /- the rest of the program: an array is not used any more; the memory becomes `w` -/
  | drop (t : Nat)
  | foreign (w : AMem)

/-- The result of a call, the calls of malloc() and free() that it did, and the memory after it. -/
structure Out where
  res : Nat
  log : List BEvent
  mem : AMem

/-- Execution of a function. -/
def call (f : String) (vs : List Val) (ms : List (Nat × (Nat → Nat))) : StateT AMem Option Out := fun w =>
  (C.run ext f vs ⟨w, ms, []⟩).map fun r => (⟨r.1.v, r.2.log, r.2.mem⟩, r.2.mem)

/-- Execution. -/
def step : Op → StateT AMem Option Out
  | .init t ty es ms => call (ty.pick "tommy_array_init" "tommy_arrayof_init" "tommy_arrayblk_init" "tommy_arrayblkof_init")
      (pArr ty t :: if ty.ptrs then [] else [⟨.usize, es⟩]) ms
  | .grow t ty n ms => call (ty.pick "tommy_array_grow" "tommy_arrayof_grow" "tommy_arrayblk_grow" "tommy_arrayblkof_grow") [pArr ty t, ⟨.usize, n⟩] ms
  | .insert t ty d ms => call (ty.pick "tommy_array_insert" "" "tommy_arrayblk_insert" "") [pArr ty t, ⟨.ptr .void, d⟩] ms
  | .ref t ty pos => call (ty.pick "tommy_array_ref" "tommy_arrayof_ref" "tommy_arrayblk_ref" "tommy_arrayblkof_ref") [pArr ty t, ⟨.usize, pos⟩] []
  | .get t ty pos => call (ty.pick "tommy_array_get" "" "tommy_arrayblk_get" "") [pArr ty t, ⟨.usize, pos⟩] []
  | .set t ty pos d => call (ty.pick "tommy_array_set" "" "tommy_arrayblk_set" "") [pArr ty t, ⟨.usize, pos⟩, ⟨.ptr .void, d⟩] []
  | .size t ty => call (ty.pick "tommy_array_size" "tommy_arrayof_size" "tommy_arrayblk_size" "tommy_arrayblkof_size") [pArr ty t] []
  | .usage t ty => call (ty.pick "tommy_array_memory_usage" "tommy_arrayof_memory_usage" "tommy_arrayblk_memory_usage" "tommy_arrayblkof_memory_usage")
      [pArr ty t] []
  | .done t ty => call (ty.pick "tommy_array_done" "tommy_arrayof_done" "tommy_arrayblk_done" "tommy_arrayblkof_done") [pArr ty t] []
  | .drop _ => fun w => some (⟨0, [], w⟩, w)
  | .foreign w' => fun _ => some (⟨0, [], w'⟩, w')

/-- The array `t` of the type `ty`, with the property `P`. -/
def Ab.Is (a : Ab) (t : Nat) (ty : Ty) (P : Vec → Prop) : Prop := ∃ v, a.tab t = some v ∧ v.ty = ty ∧ P v

/-- What the program may do. -/
def legal (a : Ab) : Op → Prop
  | .init t ty es ms => InReg a.mem t ty.strSize ∧ a.Free t ty.strSize ∧ 0 < es ∧ es < 2 ^ sizeBit ∧ (ty.ptrs = true → es = ptrSize) ∧
      Given a.mem.live [ty.first es] ms
  | .grow t ty n ms => n < 2 ^ sizeBit ∧ a.Is t ty fun v => Given a.mem.live (v.asks n) ms
  | .insert t ty d ms => ty.ptrs = true ∧ d < 2 ^ sizeBit ∧ a.Is t ty fun v => Given a.mem.live (v.asks (v.size + 1)) ms
  | .ref t ty pos => a.Is t ty fun v => pos < v.size
  | .get t ty pos => ty.ptrs = true ∧ a.Is t ty fun v => pos < v.size
  /- the element is not in use for the struct of another array -/
  | .set t ty pos d => ty.ptrs = true ∧ d < 2 ^ sizeBit ∧ a.Is t ty fun v => pos < v.size ∧ a.Free (v.addr pos) v.es
  | .size t ty | .usage t ty => a.Is t ty fun _ => True
  /- no other array has the struct in the elements -/
  | .done t ty => a.Is t ty fun v => ∀ t' v', a.tab t' = some v' → t' ≠ t → ∀ r ∈ v.own, t' + v'.ty.strSize ≤ r.1 ∨ r.1 + r.2 ≤ t'
  | .drop t => (a.tab t).isSome
  | .foreign w => Ok w ∧ ∀ t v, a.tab t = some v → InReg w t v.ty.strSize ∧ (∀ r ∈ v.own, w.live r.1 = some r.2) ∧
      ∀ x, v.internal t x → w.byte x = a.mem.byte x

/-- The array after it grows, in the memory `w`. The addresses are the ones that the function `ref` returns. -/
def Vec.grown (v : Vec) (t n : Nat) (ms : List (Nat × (Nat → Nat))) (w : AMem) : Vec :=
  { v with
    size := max v.size n
    own := v.own ++ regs (v.asks n) ms
    addr := fun pos => ((step (.ref t v.ty pos) w).map fun r => r.1.res).getD 0 }

def next (a : Ab) (op : Op) (r : Out) : Ab where
  mem := r.mem
  tab := match op with
    | .init t ty es ms => upd a.tab t (some ⟨ty, es, 0, fun _ => 0, regs [ty.first es] ms⟩)
    | .grow t _ n ms => upd a.tab t ((a.tab t).map fun v => v.grown t n ms r.mem)
    | .insert t _ _ ms => upd a.tab t ((a.tab t).map fun v => v.grown t (v.size + 1) ms r.mem)
    | .drop t | .done t _ => upd a.tab t none
    | _ => a.tab

/-- What a call returns. -/
def result (a : Ab) : Op → Nat → Prop
  | .ref t _ pos, r => ∀ v, a.tab t = some v → r = v.addr pos
  | .get t _ pos, r => ∀ v, a.tab t = some v → r = rdN a.mem.byte (v.addr pos) ptrSize
  | .size t _, r => ∀ v, a.tab t = some v → r = v.size
  | .usage t _, r => ∀ v, a.tab t = some v → r = (v.own.map Prod.snd).sum
  | _, _ => True

/-- The regions allocated by a call. -/
def news (a : Ab) : Op → List (Nat × Nat)
  | .init _ ty es ms => regs [ty.first es] ms
  | .grow t _ n ms => ((a.tab t).map fun v => regs (v.asks n) ms).getD []
  | .insert t _ _ ms => ((a.tab t).map fun v => regs (v.asks (v.size + 1)) ms).getD []
  | _ => []

/-- The regions deallocated by a call. -/
def olds (a : Ab) : Op → List (Nat × Nat)
  | .done t _ => ((a.tab t).map Vec.own).getD []
  | _ => []

/-- The bytes that a call can change. -/
def touched (a : Ab) : Op → Nat → Prop
  | .init t ty _ _, x => t ≤ x ∧ x < t + ty.strSize
  | .grow t _ _ _, x | .insert t _ _ _, x => ∃ v, a.tab t = some v ∧ v.internal t x
  | .set t _ pos _, x => ∃ v, a.tab t = some v ∧ v.addr pos ≤ x ∧ x < v.addr pos + v.es
  | _, _ => False

/-- The elements written: the new ones are zero, and what is inserted or set is in the element. -/
def written (a : Ab) (op : Op) (r : Out) : Prop :=
  match op with
  | .grow t _ _ _ => ∀ v v', a.tab t = some v → (next a op r).tab t = some v' → ∀ pos, v.size ≤ pos → pos < v'.size →
      ∀ x, v'.addr pos ≤ x → x < v'.addr pos + v'.es → r.mem.byte x = 0
  | .insert t _ d _ => ∀ v v', a.tab t = some v → (next a op r).tab t = some v' → rdN r.mem.byte (v'.addr v.size) ptrSize = d
  | .set t _ pos d => ∀ v, a.tab t = some v → rdN r.mem.byte (v.addr pos) ptrSize = d
  | _ => True

/-- The memory allocated is live, and each element is in it, apart from the other ones. -/
def Ab.places (a : Ab) : Prop := ∀ t v, a.tab t = some v → (∀ r ∈ v.own, a.mem.live r.1 = some r.2) ∧ ∀ pos, pos < v.size →
  (∃ r ∈ v.own, r.1 ≤ v.addr pos ∧ v.addr pos + v.es ≤ r.1 + r.2) ∧
  ∀ pos', pos' < v.size → pos ≠ pos' → v.addr pos + v.es ≤ v.addr pos' ∨ v.addr pos' + v.es ≤ v.addr pos

/-- No element moves. -/
def stable (a a' : Ab) : Prop := ∀ t v v', a.tab t = some v → a'.tab t = some v' → ∀ pos, pos < v.size → v'.addr pos = v.addr pos

def Op.isForeign : Op → Prop
  | .foreign _ => True
  | _ => False

/-- What a call does: the result, the elements, the allocations, and no other change of the memory. -/
def allowed (a : Ab) (op : Op) (r : Out) : Prop :=
  result a op r.res ∧ written a op r ∧ (next a op r).places ∧ stable a (next a op r) ∧
  (∃ gave : List (Nat × Nat), gave.Perm (olds a op) ∧ r.log = (news a op).map (fun x => BEvent.got x.1 x.2) ++ gave.map (fun x => BEvent.gave x.1)) ∧
  (¬ op.isForeign → (∀ b, r.mem.live b = if b ∈ (olds a op).map Prod.fst then none else addRegs a.mem.live (news a op) b) ∧
    ∀ x, InReg a.mem x 1 → ¬ touched a op x → r.mem.byte x = a.mem.byte x)

/-- The program starts without arrays, in any memory. -/
def sys : Sys AMem Ab Op Out where
  init s a := a.mem = s ∧ Ok s ∧ ∀ t, a.tab t = none
  step := step
  legal := legal
  allowed := allowed
  next := next

end CArraySpec
end Tommy
