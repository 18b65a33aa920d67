import Verif.Model.Mem
import Verif.Model.List
/-
  Memory of the two tries: the nodes, and objects made of cells which contain a tagged pointer.

  An object with cells is the `bucket` array of a trie struct (tommytrie.h:186, tommytrieinp.h:175), an
  inner block of tommytrie (tommytrie.c:57-60), or the `map` array of a node of tommytrieinp
  (tommytrieinp.h:166).  It is identified by its address `b`; a pointer to a cell (`let_ptr` in the C code)
  is the address of the object and the index of the cell.  Objects with different addresses do not overlap.
-/
set_option autoImplicit false
namespace Tommy

variable [Arch]

/-- `heap`: the nodes; `cell b i`: the cell `i` of the object `b`; `csize b`: the number of its cells, 0
    if the object is not live; `supply`: the addresses that the allocator is going to return;
    `freed`: the blocks given back to the allocator, in order. -/
structure TMem where
  heap : Heap
  cell : Ptr → Nat → Ptr
  csize : Ptr → Nat
  supply : List Ptr
  freed : List Ptr

/-- A pointer to a cell. -/
structure Loc where
  base : Ptr
  idx : Nat
deriving DecidableEq

abbrev TM := StateT TMem Option

/-- `*l` (rvalue): UB out of the bounds of a live object. -/
def cellGet (l : Loc) : TM Ptr := fun m =>
  if l.idx < m.csize l.base then some (m.cell l.base l.idx, m) else none

/-- `*l = p` -/
def cellSet (l : Loc) (p : Ptr) : TM Unit := fun m =>
  if l.idx < m.csize l.base then
    some ((), { m with cell := upd m.cell l.base (upd (m.cell l.base) l.idx p) })
  else none

/-- Code on the nodes. -/
def onN {α : Type} (x : HM α) : TM α := zoom TMem.heap (fun s h => { s with heap := h }) x

/-- tommyalloc.c:81-133 `tommy_allocator_alloc` seen by the trie: it returns a block of `n` cells with an
    arbitrary content, at the next address of `supply`. (The allocator itself is in `Verif.Model.Alloc`.) -/
def blockAlloc (n : Nat) : TM Ptr := fun m =>
  match m.supply with
  | [] => none
  | b :: r => some (b, { m with csize := upd m.csize b n, supply := r })

/-- tommyalloc.c:135-144 `tommy_allocator_free` seen by the trie: the block is not live anymore. UB if the
    block is not live. -/
def blockFree (b : Ptr) : TM Unit := fun m =>
  if m.csize b = 0 then none
  else some ((), { m with csize := upd m.csize b 0, freed := m.freed ++ [b] })

/-- `for (i = 0; i < n; ++i) b->map[i] = 0;` The last argument is `n - i`. -/
def clearCells (b : Ptr) (i : Nat) : Nat → TM Unit
  | 0 => pure ()
  | k + 1 => do
    cellSet ⟨b, i⟩ 0
    clearCells b (i + 1) k

/-- `a >> s` with `a` a `tommy_key_t` (tommytypes.h:172): UB if `s` is not less than its bits. -/
def shrKey (a s : Nat) : TM Nat := fun m => if s < sizeBit then some (a >>> s, m) else none

/-- `s - b` on `tommy_uint_t` (32 bit, tommytypes.h:79). -/
def sub32 (s b : Nat) : Nat := (s + (2 ^ 32 - b)) % 2 ^ 32

/-- `assert(c)` -/
def assertT (c : Prop) [Decidable c] : TM Unit := fun m => if c then some ((), m) else none

/-- tommytypes.h:328 `TOMMY_ILOG2` -/
def macroIlog2 (value : Nat) : Nat :=
  if value = 256 then 8 else if value = 128 then 7 else if value = 64 then 6 else if value = 32 then 5
  else if value = 16 then 4 else if value = 8 then 3 else if value = 4 then 2 else if value = 2 then 1 else 0

end Tommy
