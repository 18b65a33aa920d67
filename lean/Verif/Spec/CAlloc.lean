import Verif.C.Prog
import Verif.Spec.Alloc
import Verif.Spec.CArray
/-!
  Specification of a program which uses any number of allocators, as they are written in C (C80), in one memory of bytes: the calls execute the
  text of the functions, translated in `Verif/C/SrcAlloc.lean`, with the meaning of `Verif/C/Sem.lean`.

  The program puts the structs of the allocators at any place of its memory, also in the blocks of another allocator. Between the calls it does
  anything with the rest of the memory: it writes the blocks in use and the other bytes, and it allocates and deallocates memory.

  malloc() returns exactly the bytes requested: the sizes and the addresses are the ones for which the blocks fit in the segment (`Room`, see C28).
-/
set_option autoImplicit false
namespace Tommy

variable [Arch]
namespace CAllocSpec
open C (Val Ext)
open AllocSpec (Pool segSize minBlocks realAlign realSize Room)
open CArraySpec (Ok InReg Fresh)

/-- The allocators call no function by a pointer. -/
def ext : Ext := fun _ _ => C.fail

/-- tommyalloc.h:51-57: sizeof() of the struct. -/
def strSize : Nat := 5 * ptrSize

/-- The pointer to the struct given to the functions. -/
def pAl (t : Nat) : Val := ⟨.ptr (.struct "tommy_allocator_struct"), t⟩

/-- Abstract state: the memory, and the allocators by address of the struct. -/
structure Ab where
  mem : AMem
  pool : Nat → Option Pool

/-- The byte `x` is only for the library: in the struct at `t`, or in a segment and not in a block in use. -/
def internal (t : Nat) (P : Pool) (x : Nat) : Prop :=
  (t ≤ x ∧ x < t + strSize) ∨ ((∃ b ∈ P.segs, b ≤ x ∧ x < b + segSize P.bs P.al) ∧ ∀ p ∈ P.used, x < p ∨ p + P.bs ≤ x)

/-- No allocator uses the `n` bytes from `p`. -/
def Ab.Free (a : Ab) (p n : Nat) : Prop := ∀ x, p ≤ x → x < p + n → ∀ t P, a.pool t = some P → ¬ internal t P x

inductive Op
  | init (t bs al : Nat)
  /- `base` and `content` are what malloc() returns, if it is called -/
  | alloc (t base : Nat) (content : Nat → Nat)
  | free (t p : Nat)
  | usage (t : Nat)
  | done (t : Nat)
  /- the rest of the program: an allocator is not used any more; the memory becomes `w` -/
  | drop (t : Nat)
  | foreign (w : AMem)

/-- The result of a call, the calls of malloc() and free() that it did, and the memory after it. -/
structure Out where
  res : Nat
  log : List BEvent
  mem : AMem

/-- Execution of a function. -/
def call (f : String) (vs : List Val) (ms : List (Nat × (Nat → Nat))) : StateT AMem Option Out := fun w =>
  (C.run ext f vs ⟨w, ms, []⟩).map fun r => (⟨r.1.v, r.2.log, r.2.mem⟩, r.2.mem)

/-- Execution. -/
def step : Op → StateT AMem Option Out
  | .init t bs al => call "tommy_allocator_init" [pAl t, ⟨.usize, bs⟩, ⟨.usize, al⟩] []
  | .alloc t base content => call "tommy_allocator_alloc" [pAl t] [(base, content)]
  | .free t p => call "tommy_allocator_free" [pAl t, ⟨.ptr .void, p⟩] []
  | .usage t => call "tommy_allocator_memory_usage" [pAl t] []
  | .done t => call "tommy_allocator_done" [pAl t] []
  | .drop _ => fun w => some (⟨0, [], w⟩, w)
  | .foreign w' => fun _ => some (⟨0, [], w'⟩, w')

/-- What the program may do. -/
def legal (a : Ab) : Op → Prop
  | .init t bs al => InReg a.mem t strSize ∧ a.Free t strSize ∧ 0 < bs ∧ bs < 2 ^ sizeBit ∧ al < 2 ^ sizeBit ∧
      ptrSize + realAlign al + realSize bs al < 2 ^ sizeBit
  | .alloc t base content => ∃ P, a.pool t = some P ∧ Fresh a.mem.live base (segSize P.bs P.al) ∧ (∀ x, content x < 256) ∧ Room 0 P.bs P.al base
  /- the block is not in use for the struct of another allocator -/
  | .free t p => ∃ P, a.pool t = some P ∧ p ∈ P.used ∧ a.Free p P.bs
  | .usage t | .drop t => ∃ P, a.pool t = some P
  /- no other allocator has the struct in the blocks -/
  | .done t => ∃ P, a.pool t = some P ∧ ∀ t' P', a.pool t' = some P' → t' ≠ t → ∀ b ∈ P.segs, t' + strSize ≤ b ∨ b + segSize P.bs P.al ≤ t'
  | .foreign w => Ok w ∧ ∀ t P, a.pool t = some P → InReg w t strSize ∧ (∀ b ∈ P.segs, w.live b = some (segSize P.bs P.al)) ∧
      ∀ x, internal t P x → w.byte x = a.mem.byte x

def next (a : Ab) (op : Op) (r : Out) : Ab where
  mem := r.mem
  pool := match op with
    | .init t bs al => upd a.pool t (some ⟨realSize bs al, realAlign al, [], [], []⟩)
    | .alloc t base _ => upd a.pool t ((a.pool t).map fun P => { P with
        used := r.res :: P.used
        ever := r.res :: P.ever
        segs := if r.log.isEmpty then P.segs else base :: P.segs })
    | .free t p => upd a.pool t ((a.pool t).map fun P => { P with used := P.used.erase p })
    | .done t => upd a.pool t ((a.pool t).map fun P => { P with used := [], ever := [], segs := [] })
    | .drop t => upd a.pool t none
    | _ => a.pool

/-- What a call returns. The block allocated is aligned, in a segment, and apart from the ones in use. -/
def result (a : Ab) : Op → Out → Prop
  | .alloc t base c, r => ∀ P P', a.pool t = some P → (next a (.alloc t base c) r).pool t = some P' →
      r.res ≠ 0 ∧ r.res % P.al = 0 ∧ (∃ b ∈ P'.segs, b ≤ r.res ∧ r.res + P.bs ≤ b + segSize P.bs P.al) ∧
      ∀ q ∈ P.used, r.res + P.bs ≤ q ∨ q + P.bs ≤ r.res
  | .usage t, r => ∀ P, a.pool t = some P → r.res = P.used.length * P.bs % 2 ^ sizeBit
  | _, _ => True

/-- The calls of malloc() and free(): a segment is allocated only when all the blocks ever allocated are in use, and the segments are filled. -/
def calls (a : Ab) : Op → List BEvent → Prop
  | .alloc t base _, log => ∀ P, a.pool t = some P → log = [] ∨
      (log = [.got base (segSize P.bs P.al)] ∧ (∀ q ∈ P.ever, q ∈ P.used) ∧ P.segs.length * minBlocks P.bs P.al ≤ P.used.length)
  | .done t, log => ∀ P, a.pool t = some P → ∃ l : List Nat, l.Perm P.segs ∧ log = l.map BEvent.gave
  | _, log => log = []

/-- The live regions after the calls of malloc() and free(). -/
def liveAfter (live : Nat → Option Nat) : List BEvent → Nat → Option Nat
  | [] => live
  | .got b n :: es => liveAfter (upd live b (some n)) es
  | .gave b :: es => liveAfter (upd live b none) es

/-- The bytes that a call can change. -/
def touched (a : Ab) : Op → Nat → Prop
  | .init t _ _, x | .alloc t _ _, x | .done t, x => t ≤ x ∧ x < t + strSize
  | .free t p, x => (t ≤ x ∧ x < t + strSize) ∨ ∃ P, a.pool t = some P ∧ p ≤ x ∧ x < p + P.bs
  | _, _ => False

def Op.isForeign : Op → Prop
  | .foreign _ => True
  | _ => False

/-- What a call does: the result, the calls of malloc() and free(), and no other change of the memory. -/
def allowed (a : Ab) (op : Op) (r : Out) : Prop :=
  result a op r ∧ calls a op r.log ∧
  (¬ op.isForeign → r.mem.live = liveAfter a.mem.live r.log ∧ ∀ x, InReg a.mem x 1 → ¬ touched a op x → r.mem.byte x = a.mem.byte x)

/-- The program starts without allocators, in any memory. -/
def sys : Sys AMem Ab Op Out where
  init s a := a.mem = s ∧ Ok s ∧ ∀ t, a.pool t = none
  step := step
  legal := legal
  allowed := allowed
  next := next

end CAllocSpec
end Tommy
