import Verif.Model.Mem
import Verif.Spec.Sys
/-
  Specification of the four arrays: a vector of elements, each one made of `es` cells (one `void*` for the
  arrays of pointers, `es` bytes for the others), that can only grow, with the new elements set to 0.

  Between the calls the rest of the program can allocate, free and write any other vector.
-/
set_option autoImplicit false
namespace Tommy

variable [Arch]
namespace ArraySpec

/-- The functions of an array, `T` is the struct. -/
structure Impl (T : Type) where
  /-- cells of an element -/
  es : Nat
  /-- the sizes that can be reached without exceeding the address space -/
  fits : Nat → Prop
  grow : T → Nat → MM T
  ref : T → Nat → MM Ref
  /-- only for the arrays of pointers -/
  ptr : Option ((T → Nat → Nat → MM Unit) × (T → Nat → MM Nat) × (T → Nat → MM T))
  size : T → Nat
  usage : T → Nat
  done : T → MM Unit

/-- Concrete state: the memory and the struct. -/
structure St (T : Type) where
  mem : Mem
  arr : T

/-- Abstract state: the size, the cells of each element, and the live vectors of the rest of the program. -/
structure Ab where
  size : Nat
  val : Nat → Nat → Nat
  other : Nat → Bool

inductive Op
  | grow (n : Nat)
  | size
  /- access to the cell `off` of the element `pos` through `ref(pos)` -/
  | refRead (pos off : Nat)
  | refWrite (pos off x : Nat)
  /- functions of the arrays of pointers -/
  | set (pos x : Nat)
  | get (pos : Nat)
  | insert (x : Nat)
  /- the rest of the program -/
  | alloc (len : Nat) (content : Nat → Option Nat)
  | free (v : Nat)
  | write (v i : Nat) (x : Option Nat)

inductive Out
  | unit
  | val (n : Nat)
deriving DecidableEq

/-- Execution of a call on the model. -/
def step {T : Type} (I : Impl T) : Op → StateT (St T) Option Out
  | .grow n => fun s => (I.grow s.arr n s.mem).map fun r => (.unit, ⟨r.2, r.1⟩)
  | .size => fun s => some (.val (I.size s.arr), s)
  | .refRead pos off => fun s =>
      ((do let r ← I.ref s.arr pos; readRef (r.add off) : MM Nat) s.mem).map fun r => (.val r.1, ⟨r.2, s.arr⟩)
  | .refWrite pos off x => fun s =>
      ((do let r ← I.ref s.arr pos; writeRef (r.add off) x : MM Unit) s.mem).map fun r => (.unit, ⟨r.2, s.arr⟩)
  | .set pos x => fun s => do
      let f ← I.ptr
      let r ← f.1 s.arr pos x s.mem
      return (.unit, ⟨r.2, s.arr⟩)
  | .get pos => fun s => do
      let f ← I.ptr
      let r ← f.2.1 s.arr pos s.mem
      return (.val r.1, ⟨r.2, s.arr⟩)
  | .insert x => fun s => do
      let f ← I.ptr
      let r ← f.2.2 s.arr x s.mem
      return (.unit, ⟨r.2, r.1⟩)
  | .alloc len content => fun s =>
      some (.val s.mem.vnext, { s with mem := { s.mem with
        vlen := upd s.mem.vlen s.mem.vnext (some len)
        vcell := upd s.mem.vcell s.mem.vnext content
        vnext := s.mem.vnext + 1 } })
  | .free v => fun s => some (.unit, { s with mem := { s.mem with vlen := upd s.mem.vlen v none } })
  | .write v i x => fun s =>
      some (.unit, { s with mem := { s.mem with vcell := upd s.mem.vcell v (upd (s.mem.vcell v) i x) } })

/-- What the client may do. -/
def legal {T : Type} (I : Impl T) (a : Ab) : Op → Prop
  | .grow n => I.fits n
  | .size => True
  | .refRead pos off | .refWrite pos off _ => pos < a.size ∧ off < I.es
  | .set pos _ | .get pos => I.ptr.isSome ∧ pos < a.size
  | .insert _ => I.ptr.isSome ∧ I.fits (a.size + 1)
  | .alloc _ _ => True
  | .free v | .write v _ _ => a.other v = true

def allowed (a : Ab) : Op → Out → Prop
  | .grow _, r | .refWrite _ _ _, r | .set _ _, r | .insert _, r | .free _, r | .write _ _ _, r => r = .unit
  | .size, r => r = .val a.size
  | .refRead pos off, r => r = .val (a.val pos off)
  | .get pos, r => r = .val (a.val pos 0)
  | .alloc _ _, r => ∃ v, r = .val v ∧ a.other v = false

/-- The new elements of grow are 0: `val` is 0 over the size, see `init`. -/
def next (a : Ab) : Op → Out → Ab
  | .grow n, _ => { a with size := max a.size n }
  | .refWrite pos off x, _ => { a with val := upd a.val pos (upd (a.val pos) off x) }
  | .set pos x, _ => { a with val := upd a.val pos (upd (a.val pos) 0 x) }
  | .insert x, _ => { a with size := a.size + 1, val := upd a.val a.size (upd (a.val a.size) 0 x) }
  | .alloc _ _, .val v => { a with other := upd a.other v true }
  | .free v, _ => { a with other := upd a.other v false }
  | _, _ => a

/-- The memory where init starts: any content, any live vectors. -/
def StartOk (m : Mem) : Prop := ∀ v, m.vnext ≤ v → m.vlen v = none

/-- An array initialised by `start` in the memory `m0`. -/
def sys {T : Type} (I : Impl T) (start : MM T) (m0 : Mem) : Sys (St T) Ab Op Out where
  init s a := StartOk m0 ∧ start m0 = some (s.arr, s.mem) ∧ a.size = 0 ∧ a.val = (fun _ _ => 0) ∧
    a.other = fun v => (m0.vlen v).isSome
  step := step I
  legal := legal I
  allowed := allowed
  next := next

/-- The vectors of the rest of the program, and the nodes, are the same in `m'`. -/
def Untouched (other : Nat → Bool) (m m' : Mem) : Prop :=
  m'.heap = m.heap ∧ ∀ v, other v = true → m'.vlen v = m.vlen v ∧ m'.vcell v = m.vcell v

/-- The calls of the library and the accesses through ref(). -/
def isCall : Op → Prop
  | .alloc _ _ | .free _ | .write _ _ _ => False
  | _ => True

/-- The live vectors of `m` not of the rest of the program, that is the ones of the array. -/
structure OwnVecs (other : Nat → Bool) (m : Mem) (vs : List Nat) : Prop where
  nodup : vs.Nodup
  mem : ∀ v, v ∈ vs ↔ other v = false ∧ m.vlen v ≠ none

/-- Total number of cells. -/
def cellCount (m : Mem) (vs : List Nat) : Nat := (vs.map (fun v => (m.vlen v).getD 0)).sum

end ArraySpec
end Tommy
