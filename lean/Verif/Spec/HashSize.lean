import Verif.Spec.HashImpl
/-
  When the dynamic hashtables are resized: the law that gives the number of buckets after a call, from the number of
  buckets before it and the number of elements before and after it.
-/
set_option autoImplicit false
namespace Tommy
namespace HashSpec

/-- The buckets of a tommy_hashdyn after a call: `b` buckets before, `n` elements before, `n'` elements after. -/
def dynSize (b n n' : Nat) : Nat :=
  if n < n' ∧ b ≤ 2 * n' then 2 * b
  else if n' < n ∧ 8 * n' ≤ b ∧ 16 < b then b / 2
  else b

/-- The size of a tommy_hashlin. -/
structure LinSize where
  /-- The buckets of the whole table. -/
  size : Nat
  /-- The buckets in use, from half of them to all. -/
  used : Nat
  /-- If the table is changing size, and in which direction. -/
  mode : LinState
deriving DecidableEq

/-- A tommy_hashlin with `n` elements after an insert. The growth starts when there are more elements than half of the buckets: a stable
    table is doubled, one that was shrinking grows again to its size. Then two buckets are used for each element. -/
def LinSize.grow (z : LinSize) (n : Nat) : LinSize :=
  let z := if z.mode ≠ .grow ∧ z.size < 2 * n then ⟨if z.mode = .stable then 2 * z.size else z.size, z.used, .grow⟩ else z
  if z.mode ≠ .grow then z
  else if z.size ≤ 2 * n then ⟨z.size, z.size, .stable⟩
  else ⟨z.size, max z.used (2 * n), .grow⟩

/-- A tommy_hashlin with `n` elements after a remove. The shrink starts when there are less elements than 1/8 of the buckets, if
    these are more than 64. Then at most eight buckets are used for each element, and when half of the table is not used it is freed. -/
def LinSize.shrink (z : LinSize) (n : Nat) : LinSize :=
  let z := if z.mode ≠ .shrink ∧ 8 * n < z.size ∧ 64 < z.size then ⟨z.size, z.used, .shrink⟩ else z
  if z.mode ≠ .shrink then z
  else if 8 * n ≤ z.size / 2 then ⟨z.size / 2, z.size / 2, .stable⟩
  else ⟨z.size, min z.used (8 * n), .shrink⟩

/-- The size of a tommy_hashlin after a call: `n` elements before, `n'` elements after. -/
def LinSize.next (z : LinSize) (n n' : Nat) : LinSize :=
  if n < n' then z.grow n' else if n' < n then z.shrink n' else z

/-- The size of a tommy_hashlin, as in its fields. -/
def linSize (t : Hashlin) : LinSize := ⟨t.bucketMax, t.lowMax + t.split, t.state⟩

end HashSpec
end Tommy
