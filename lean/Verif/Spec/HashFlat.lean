import Verif.Model.HashFlat
import Verif.Spec.HashSize
import Mathlib.Data.Nat.Log
/-!
  Specification of a program which uses any number of hashtables of the three kinds in one memory of bytes (C75).

  The program has its own memory regions. It puts the structs of the tables and the nodes at any place of them, and writes
  and reads the other bytes as it likes. The tables get their vectors from the same malloc() of the program, which can
  return again the memory that was freed.
-/
set_option autoImplicit false
namespace Tommy

variable [Arch]
namespace HashFlatSpec
open HashSpec (Elem LinSize dynSize)

inductive Ty
  | hashtable
  | hashdyn
  | hashlin
deriving DecidableEq

/-- sizeof() of the struct. -/
def structSize : Ty → Nat
  | .hashtable => tblSize
  | .hashdyn => dynStruct
  | .hashlin => linStruct

/-! ### The functions of the library, on a table at the address `t` -/

def binit (ty : Ty) (t n : Nat) : BM Unit :=
  match ty with
  | .hashtable => bhashtableInit t n
  | .hashdyn => bhashdynInit t
  | .hashlin => bhashlinInit t

def bdone (ty : Ty) (t : Nat) : BM Unit :=
  match ty with
  | .hashtable => bhashtableDone t
  | .hashdyn => bhashdynDone t
  | .hashlin => bhashlinDone t

def binsert (ty : Ty) (t node data hash : Nat) : BM Unit :=
  match ty with
  | .hashtable => bhashtableInsert t node data hash
  | .hashdyn => bhashdynInsert t node data hash
  | .hashlin => bhashlinInsert t node data hash

def bremove (ty : Ty) (t : Nat) (cmp : Nat → Int) (hash : Nat) : BM Nat :=
  match ty with
  | .hashtable => bhashtableRemove t cmp hash
  | .hashdyn => bhashdynRemove t cmp hash
  | .hashlin => bhashlinRemove t cmp hash

def bremoveExisting (ty : Ty) (t node : Nat) : BM Nat :=
  match ty with
  | .hashtable => bhashtableRemoveExisting t node
  | .hashdyn => bhashdynRemoveExisting t node
  | .hashlin => bhashlinRemoveExisting t node

def bsearch (ty : Ty) (t : Nat) (cmp : Nat → Int) (hash : Nat) : BM Nat :=
  match ty with
  | .hashtable => bhashtableSearch t cmp hash
  | .hashdyn => bhashdynSearch t cmp hash
  | .hashlin => bhashlinSearch t cmp hash

def bbucket (ty : Ty) (t hash : Nat) : BM Nat :=
  match ty with
  | .hashtable => bhashtableBucket t hash
  | .hashdyn => bhashdynBucket t hash
  | .hashlin => bhashlinBucket t hash

def bcount (ty : Ty) (t : Nat) : BM Nat :=
  match ty with
  | .hashtable => bhashtableCount t
  | .hashdyn => bhashdynCount t
  | .hashlin => bhashlinCount t

def busage (ty : Ty) (t : Nat) : BM Nat :=
  match ty with
  | .hashtable => bhashtableMemoryUsage t
  | .hashdyn => bhashdynMemoryUsage t
  | .hashlin => bhashlinMemoryUsage t

def bforeach (ty : Ty) (t : Nat) (func : Nat → BM Unit) : BM Unit :=
  match ty with
  | .hashtable => bhashtableForeach t func
  | .hashdyn => bhashdynForeach t func
  | .hashlin => bhashlinForeach t func

/-- The documented deallocation of all the objects, tommyhashtbl.h:251-255, tommyhashdyn.h:267-271, tommyhashlin.h:316-320: foreach with free(),
    then done. -/
def bfreeAll (ty : Ty) (t : Nat) : BM Unit := do
  bforeach ty t bfree
  bdone ty t

/-- The client loop of the documentation, tommyhashtbl.h:57-68 (and the same in the other hashtables): visits a bucket from its head
    through `next`. -/
def bwalkLoop (i : Nat) (acc : List Elem) : BM (List Elem) := do
  if i = 0 then
    return acc.reverse
  let d ← bget (i + nodData)
  let x ← bget (i + nodIndex)
  let n ← bget (i + nodNext)
  bwalkLoop n (⟨i, d, x⟩ :: acc)
partial_fixpoint

/-- A call. -/
def bcall (ty : Ty) (t : Nat) : HashSpec.Op → BM HashSpec.Out
  | .insert p d h => do
    binsert ty t p d h
    return .unit
  | .remove cmp h => do
    let d ← bremove ty t cmp h
    return .val d
  | .removeExisting p => do
    let d ← bremoveExisting ty t p
    return .val d
  | .search cmp h => do
    let d ← bsearch ty t cmp h
    return .val d
  | .bucket h => do
    let i ← bbucket ty t h
    let l ← bwalkLoop i []
    return .elems l
  | .count => do
    let n ← bcount ty t
    return .val n
  | _ => fun _ => none

/-! ### What the program sees -/

/-- The size of a table. -/
inductive Sz
  | hashtable (buckets : Nat)
  | hashdyn (buckets : Nat)
  | hashlin (z : LinSize)

def Sz.ty : Sz → Ty
  | .hashtable _ => .hashtable
  | .hashdyn _ => .hashdyn
  | .hashlin _ => .hashlin

/-- The buckets allocated. -/
def Sz.buckets : Sz → Nat
  | .hashtable n => n
  | .hashdyn n => n
  | .hashlin z => z.size

/-- A new table: for a `tommy_hashtable` the least power of two not less than `n` and 16. -/
def Sz.start (n : Nat) : Ty → Sz
  | .hashtable => .hashtable (2 ^ max 4 (Nat.clog 2 n))
  | .hashdyn => .hashdyn 16
  | .hashlin => .hashlin ⟨64, 64, .stable⟩

/-- After a call: `n` elements before, `n'` elements after (the law of C67). -/
def Sz.next (z : Sz) (n n' : Nat) : Sz :=
  match z with
  | .hashtable b => .hashtable b
  | .hashdyn b => .hashdyn (dynSize b n n')
  | .hashlin z => .hashlin (z.next n n')

/-- The sizes in bytes of the memory asked to malloc() when the size of a table changes from `z` to `z'`: a `tommy_hashdyn` asks for all the
    new buckets, a `tommy_hashlin` only for the added ones, and nothing when it shrinks. -/
def Sz.asks (z z' : Sz) : List Nat :=
  match z with
  | .hashtable _ => []
  | .hashdyn _ => if z'.buckets = z.buckets then [] else [ptrSize * z'.buckets]
  | .hashlin _ => if z.buckets < z'.buckets then [ptrSize * (z'.buckets - z.buckets)] else []

/-- A table: its size, the elements in insertion order, and the memory that it owns (address, bytes). -/
structure Tab where
  sz : Sz
  es : List Elem
  own : List (Nat × Nat)

/-- Abstract state: the regions of the program, the tables by address of the struct, and the bytes of the program if they are known. -/
structure Ab where
  env : Nat → Option Nat
  tab : Nat → Option Tab
  byte : Nat → Option Nat

/-- The regions obtained from malloc() and not freed. -/
def Ab.Region (a : Ab) (b n : Nat) : Prop := a.env b = some n ∨ ∃ t T, a.tab t = some T ∧ (b, n) ∈ T.own

/-- malloc() may return `b` for `n` bytes: not null, out of the other regions, in the address space. -/
def Ab.Fresh (a : Ab) (b n : Nat) : Prop :=
  0 < b ∧ b + n < 2 ^ sizeBit ∧ (∀ k, ¬ a.Region b k) ∧ ∀ c k, a.Region c k → b + n ≤ c ∨ c + k ≤ b

/-- The byte is in the struct of a table. -/
def Ab.InStruct (a : Ab) (x : Nat) : Prop := ∃ t T, a.tab t = some T ∧ t ≤ x ∧ x < t + structSize T.sz.ty

/-- The byte is in a node of a table. -/
def Ab.InNode (a : Ab) (x : Nat) : Prop := ∃ t T e, a.tab t = some T ∧ e ∈ T.es ∧ e.node ≤ x ∧ x < e.node + nodeSize

/-- The program can use the `n` bytes from `p`: they are in one of its regions, and they are not in use by a table. -/
def Ab.Avail (a : Ab) (p n : Nat) : Prop :=
  (∃ b k, a.env b = some k ∧ b ≤ p ∧ p + n ≤ b + k) ∧ ∀ x, p ≤ x → x < p + n → ¬ a.InStruct x ∧ ¬ a.InNode x

inductive Op
  /- `m` and `content` are what malloc() returns, if it is called -/
  | init (t : Nat) (ty : Ty) (n m : Nat) (content : Nat → Nat)
  | call (t : Nat) (ty : Ty) (op : HashSpec.Op) (m : Nat) (content : Nat → Nat)
  | usage (t : Nat) (ty : Ty)
  | done (t : Nat) (ty : Ty)
  /- foreach with free(), then done -/
  | destroy (t : Nat) (ty : Ty)
  /- the rest of the program -/
  | emalloc (b n : Nat) (content : Nat → Nat)
  | efree (b : Nat)
  | ewrite (x v : Nat)
  | eread (x : Nat)

/-- The result of a call, and the calls of malloc() and free() that it did. -/
structure Out where
  res : HashSpec.Out
  log : List BEvent

/-- Execution of a function, with malloc() that returns `m`. -/
def run {α : Type} (x : BM α) (m : Nat) (content : Nat → Nat) (f : α → HashSpec.Out) : StateT AMem Option Out := fun w =>
  (x ⟨w, [(m, content)], []⟩).map fun r => (⟨f r.1, r.2.log⟩, r.2.mem)

/-- Execution. -/
def step : Op → StateT AMem Option Out
  | .init t ty n m c => run (binit ty t n) m c fun _ => .unit
  | .call t ty op m c => run (bcall ty t op) m c id
  | .usage t ty => run (busage ty t) 0 (fun _ => 0) .val
  | .done t ty => run (bdone ty t) 0 (fun _ => 0) fun _ => .unit
  | .destroy t ty => run (bfreeAll ty t) 0 (fun _ => 0) fun _ => .unit
  | .emalloc b n c => run (bmalloc n) b c fun _ => .unit
  | .efree b => run (bfree b) 0 (fun _ => 0) fun _ => .unit
  | .ewrite x v => run (bsetN 1 x v) 0 (fun _ => 0) fun _ => .unit
  | .eread x => run (bgetN 1 x) 0 (fun _ => 0) .val

/-- The elements after a call. -/
def after (es : List Elem) (op : HashSpec.Op) : List Elem := (HashSpec.next ⟨es, fun _ => true⟩ op .unit).elems

def Tab.szAfter (T : Tab) (op : HashSpec.Op) : Sz := T.sz.next T.es.length (after T.es op).length

/-- The element is in an object obtained from malloc(), its payload is the address of the object, and the object has no struct and no other
    node of the tables. -/
def Ab.Object (a : Ab) (e : Elem) : Prop := ∃ n, a.env e.data = some n ∧ e.data ≤ e.node ∧ e.node + nodeSize ≤ e.data + n ∧
  ∀ x, e.data ≤ x → x < e.data + n → ¬ a.InStruct x ∧ ∀ t T f, a.tab t = some T → f ∈ T.es → f.node ≤ x → x < f.node + nodeSize → f = e

/-- What the program may do. -/
def legal (a : Ab) : Op → Prop
  | .init t ty n m c => a.Avail t (structSize ty) ∧ (ty = .hashtable → n ≤ HashSpec.maxBuckets) ∧
      a.Fresh m (ptrSize * (Sz.start n ty).buckets) ∧ ∀ x, c x < 256
  | .call t ty op m c => ∃ T, a.tab t = some T ∧ T.sz.ty = ty ∧ (match op with
      | .insert p d h => a.Avail p nodeSize ∧ d < 2 ^ sizeBit ∧ h < 2 ^ sizeBit
      | .removeExisting p => p ∈ T.es.map Elem.node
      | .remove _ _ | .search _ _ | .bucket _ | .count => True
      | _ => False) ∧ ∀ k ∈ T.sz.asks (T.szAfter op), a.Fresh m k ∧ ∀ x, c x < 256
  | .usage t ty | .done t ty => ∃ T, a.tab t = some T ∧ T.sz.ty = ty
  | .destroy t ty => ∃ T, a.tab t = some T ∧ T.sz.ty = ty ∧ ∀ e ∈ T.es, a.Object e
  | .emalloc b n c => a.Fresh b n ∧ ∀ x, c x < 256
  | .efree b => ∃ n, a.env b = some n ∧ a.Avail b n
  | .ewrite x v => a.Avail x 1 ∧ v < 256
  | .eread x => a.Avail x 1

/-- The memory owned after some calls of malloc() and free(): `none` if something not owned is freed. -/
def owns (o : List (Nat × Nat)) : List BEvent → Option (List (Nat × Nat))
  | [] => some o
  | .got p n :: es => owns ((p, n) :: o) es
  | .gave p :: es => if o.any (fun r => r.1 = p) then owns (o.eraseP fun r => r.1 = p) es else none

/-- The calls of malloc(). -/
def asked : List BEvent → List (Nat × Nat)
  | [] => []
  | .got p n :: es => (p, n) :: asked es
  | .gave _ :: es => asked es

/-- The bytes owned. -/
def total (o : List (Nat × Nat)) : Nat := (o.map Prod.snd).sum

/-- What a call returns, and which memory it gets and frees. -/
def allowed (a : Ab) : Op → Out → Prop
  | .init _ ty n m _, r => r.res = .unit ∧ r.log = [.got m (ptrSize * (Sz.start n ty).buckets)]
  | .call t _ op m _, r => ∃ T, a.tab t = some T ∧ HashSpec.allowed ⟨T.es, fun _ => true⟩ op r.res ∧
      asked r.log = (T.sz.asks (T.szAfter op)).map (fun k => (m, k)) ∧
      ∃ o, owns T.own r.log = some o ∧ total o = ptrSize * (T.szAfter op).buckets
  | .usage t _, r => r.log = [] ∧ ∃ T, a.tab t = some T ∧ r.res = .val (total T.own + nodeSize * T.es.length)
  | .done t _, r => r.res = .unit ∧ ∃ T, a.tab t = some T ∧ owns T.own r.log = some []
  | .destroy t _, r => r.res = .unit ∧ ∃ T, ∃ ds : List Nat, ∃ evs, a.tab t = some T ∧ r.log = ds.map BEvent.gave ++ evs ∧
      ds.Perm (T.es.map Elem.data) ∧
      owns T.own evs = some []
  | .emalloc b n _, r => r.res = .unit ∧ r.log = [.got b n]
  | .efree b, r => r.res = .unit ∧ r.log = [.gave b]
  | .ewrite _ _, r => r.res = .unit ∧ r.log = []
  | .eread x, r => r.log = [] ∧ ∃ v, r.res = .val v ∧ ∀ c, a.byte x = some c → v = c

/-- The bytes are not known any more. -/
def forget (f : Nat → Option Nat) (p n : Nat) : Nat → Option Nat := fun x => if p ≤ x ∧ x < p + n then none else f x

def next (a : Ab) : Op → Out → Ab
  | .init t ty n m _, _ => { a with
      tab := upd a.tab t (some ⟨Sz.start n ty, [], [(m, ptrSize * (Sz.start n ty).buckets)]⟩)
      byte := forget a.byte t (structSize ty) }
  | .call t _ op _ _, r => { a with
      tab := upd a.tab t ((a.tab t).map fun T => ⟨T.szAfter op, after T.es op, (owns T.own r.log).getD []⟩)
      byte := match op with
        | .insert p _ _ => forget a.byte p nodeSize
        | _ => a.byte }
  | .destroy t _, _ => { a with
      env := fun b => if ((a.tab t).map Tab.es).any (fun es => es.any fun e => e.data = b) then none else a.env b
      tab := upd a.tab t none }
  | .done t _, _ => { a with tab := upd a.tab t none }
  | .emalloc b n c, _ => { a with
      env := upd a.env b (some n)
      byte := fun x => if b ≤ x ∧ x < b + n then some (c x) else a.byte x }
  | .efree b, _ => { a with env := upd a.env b none }
  | .ewrite x v, _ => { a with byte := upd a.byte x (some v) }
  | .usage _ _, _ | .eread _, _ => a

/-- The program starts without tables, in any memory with some regions. -/
def sys : Sys AMem Ab Op Out where
  init s a := (∀ x, s.byte x < 256) ∧ (∀ b n, s.live b = some n → 0 < b ∧ b + n < 2 ^ sizeBit) ∧
    (∀ b n b' n', s.live b = some n → s.live b' = some n' → b ≠ b' → b + n ≤ b' ∨ b' + n' ≤ b) ∧
    a.env = s.live ∧ a.tab = (fun _ => none) ∧ ∀ x, a.byte x = some (s.byte x)
  step := step
  legal := legal
  allowed := allowed
  next := next

/-! ### The memory of a table -/

/-- The table `b` uses the byte `x`. -/
def Ab.uses (a : Ab) (b x : Nat) : Prop := ∃ T, a.tab b = some T ∧ ((b ≤ x ∧ x < b + structSize T.sz.ty) ∨
  ∃ e ∈ T.es, e.node ≤ x ∧ x < e.node + nodeSize)

/-- The table `b` owns the region `p`. -/
def Ab.owned (a : Ab) (b p : Nat) : Prop := ∃ T n, a.tab b = some T ∧ (p, n) ∈ T.own

/-- The byte is in the memory of the table: the struct, the stored nodes, the vectors. -/
def Ab.mine (a : Ab) (b x : Nat) : Prop := a.uses b x ∨ ∃ T c k, a.tab b = some T ∧ (c, k) ∈ T.own ∧ c ≤ x ∧ x < c + k

/-- The table of a call. -/
def Op.on : Op → Option Nat
  | .call t _ _ _ _ | .usage t _ | .done t _ | .destroy t _ => some t
  | _ => none

/-- The byte is in the node to insert. -/
def Op.inNew : Op → Nat → Prop
  | .call _ _ (.insert p _ _) _ _, x => p ≤ x ∧ x < p + nodeSize
  | _, _ => False

end HashFlatSpec
end Tommy
