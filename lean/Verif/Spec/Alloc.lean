import Verif.Model.Alloc
import Verif.Spec.Sys
/-
  Specification of the allocator: any number of allocators in the same heap, together with the rest of the program
  that calls malloc() and free(), and writes in its memory and in the blocks obtained from the allocators.
-/
set_option autoImplicit false
namespace Tommy
namespace AllocSpec
variable [Arch]

/-- Concrete state: the memory and the allocator structs. -/
structure St where
  mem : AMem
  al : Nat → Option Alloc

/-- An allocator as seen by the user: size of the blocks, alignment, blocks in use, blocks ever returned by alloc(),
    addresses obtained from malloc(). -/
structure Pool where
  bs : Nat
  al : Nat
  used : List Nat
  ever : List Nat
  segs : List Nat

/-- The size of the memory asked to malloc: 4032 bytes, or more if a block does not fit. -/
def segSize (bs al : Nat) : Nat := max 4032 (ptrSize + al + bs)

/-- Blocks in a segment, at least. -/
def minBlocks (bs al : Nat) : Nat := (segSize bs al + 1 - al) / bs

/-- Abstract state: the allocators, and the regions (address and size) obtained from malloc() by the rest of the program. -/
structure Ab where
  pool : Nat → Option Pool
  env : Nat → Option Nat

/-- The regions obtained from malloc() and not freed. -/
def Ab.Region (a : Ab) (b n : Nat) : Prop :=
  a.env b = some n ∨ ∃ id P, a.pool id = some P ∧ b ∈ P.segs ∧ n = segSize P.bs P.al

/-- malloc() may return `base` for `size` bytes: not null, out of the other regions, in the address space. -/
def Ab.Fresh (a : Ab) (slack base size : Nat) : Prop :=
  0 < base ∧ base + size + slack < 2 ^ sizeBit ∧ (∀ n, ¬ a.Region base n) ∧
    ∀ b n, a.Region b n → base + size + slack ≤ b ∨ b + n + slack ≤ base

/-- The bytes the user can write: the ones of the regions of the rest of the program and of the blocks in use. -/
def Ab.UserByte (a : Ab) (x : Nat) : Prop :=
  (∃ b n, a.env b = some n ∧ b ≤ x ∧ x < b + n) ∨
  ∃ id P p, a.pool id = some P ∧ p ∈ P.used ∧ p ≤ x ∧ x < p + P.bs

inductive Op
  | init (id bs al : Nat)
  /- `base` and `content` are what malloc() returns, if it is called -/
  | alloc (id base : Nat) (content : Nat → Nat)
  | free (id p : Nat)
  | usage (id : Nat)
  | done (id : Nat)
  /- the rest of the program -/
  | emalloc (base size : Nat) (content : Nat → Nat)
  | efree (base : Nat)
  | ewrite (x v : Nat)

inductive Out
  | unit
  /- a block, and if malloc() was called -/
  | block (p : Nat) (new : Bool)
  | num (n : Nat)

/-- Execution of a call on the model. That malloc() was called is seen from the memory. -/
def step (slack : Nat) : Op → StateT St Option Out
  | .init id bs al => fun s => some (.unit, { s with al := upd s.al id (some (allocatorInit bs al)) })
  | .alloc id base content => fun s => do
      let t ← s.al id
      let r ← allocatorAlloc slack base content t s.mem
      return (.block r.1.2 ((s.mem.live base).isNone && (r.2.live base).isSome), ⟨r.2, upd s.al id (some r.1.1)⟩)
  | .free id p => fun s => do
      let t ← s.al id
      let r ← allocatorFree t p s.mem
      return (.unit, ⟨r.2, upd s.al id (some r.1)⟩)
  | .usage id => fun s => do
      let t ← s.al id
      return (.num (allocatorMemoryUsage t), s)
  | .done id => fun s => do
      let t ← s.al id
      let r ← allocatorDone t s.mem
      return (.unit, ⟨r.2, upd s.al id (some r.1)⟩)
  | .emalloc base size content => fun s => (amalloc slack base content size s.mem).map fun r => (.unit, ⟨r.2, s.al⟩)
  | .efree base => fun s => (afree base s.mem).map fun r => (.unit, ⟨r.2, s.al⟩)
  | .ewrite x v => fun s => some (.unit, { s with mem := { s.mem with byte := upd s.mem.byte x v } })

/-- The alignment and the block size that init really uses. -/
def realAlign (al : Nat) : Nat := max al ptrSize
def realSize (bs al : Nat) : Nat := (bs + realAlign al - 1) / realAlign al * realAlign al

/-- Restrictions on the use: the sizes given to init, and the addresses returned by malloc(). -/
structure Use where
  sizes : Nat → Nat → Prop
  base : Nat → Prop

def legal (slack : Nat) (u : Use) (a : Ab) : Op → Prop
  | .init id bs al => a.pool id = none ∧ 0 < bs ∧ ptrSize + realAlign al + realSize bs al < 2 ^ sizeBit ∧
      u.sizes (realSize bs al) (realAlign al)
  | .alloc id base _ => u.base base ∧ ∃ P, a.pool id = some P ∧ a.Fresh slack base (segSize P.bs P.al)
  | .free id p => ∃ P, a.pool id = some P ∧ p ∈ P.used
  | .usage id | .done id => ∃ P, a.pool id = some P
  | .emalloc base size _ => u.base base ∧ a.Fresh slack base size
  | .efree base => (a.env base).isSome
  | .ewrite x _ => a.UserByte x

/-- The block from `p` of size `n` does not overlap with the memory in use of the user. -/
def Ab.Apart (a : Ab) (p n : Nat) : Prop := ∀ x, p ≤ x → x < p + n → ¬ a.UserByte x

def allowed (a : Ab) : Op → Out → Prop
  | .alloc id _ _, r => ∃ P p new, a.pool id = some P ∧ r = .block p new ∧ p ≠ 0 ∧ p % P.al = 0 ∧ a.Apart p P.bs ∧
      (new = true → (∀ q ∈ P.ever, q ∈ P.used) ∧ P.segs.length * minBlocks P.bs P.al ≤ P.used.length)
  | .usage id, r => ∃ P, a.pool id = some P ∧ r = .num (P.used.length * P.bs % 2 ^ sizeBit)
  | _, r => r = .unit

def next (a : Ab) : Op → Out → Ab
  | .init id bs al, _ => { a with pool := upd a.pool id (some ⟨realSize bs al, realAlign al, [], [], []⟩) }
  | .alloc id base _, .block p new => match a.pool id with
      | none => a
      | some P => { a with pool := upd a.pool id (some { P with
          used := p :: P.used
          ever := p :: P.ever
          segs := if new then base :: P.segs else P.segs }) }
  | .free id p, _ => match a.pool id with
      | none => a
      | some P => { a with pool := upd a.pool id (some { P with used := P.used.erase p }) }
  | .done id, _ => match a.pool id with
      | none => a
      | some P => { a with pool := upd a.pool id (some { P with used := [], ever := [], segs := [] }) }
  | .emalloc base size _, _ => { a with env := upd a.env base (some size) }
  | .efree base, _ => { a with env := upd a.env base none }
  | _, _ => a

/-- The start: no allocator, and any memory without live regions. -/
def sys (slack : Nat) (u : Use) : Sys St Ab Op Out where
  init s a := (∀ b, s.mem.live b = none) ∧ (∀ id, s.al id = none) ∧ (∀ id, a.pool id = none) ∧ ∀ b, a.env b = none
  step := step slack
  legal := legal slack u
  allowed := allowed
  next := next

/-- The calls of the allocator. -/
def isCall : Op → Prop
  | .emalloc _ _ _ | .efree _ | .ewrite _ _ => False
  | _ => True

/-- Position of the first block of a segment. -/
def pad (al base : Nat) : Nat := if (base + ptrSize) % al = 0 then 0 else al - (base + ptrSize) % al

/-- The blocks put by the code in the segment `base` are inside it, including the slack. -/
def Room (slack bs al base : Nat) : Prop :=
  ptrSize + pad al base + (segSize bs al - pad al base) / bs * bs ≤ segSize bs al + slack

end AllocSpec
end Tommy
