/-
  Specification of the hash functions on byte strings: Bob Jenkins' lookup3 (hashlittle/hashlittle2),
  written on lists of bytes, with 12 byte blocks, missing bytes being 0.
-/
set_option autoImplicit false
namespace Tommy
namespace Lookup3

abbrev Byte := BitVec 8

/-- The accumulators. -/
abbrev State := BitVec 32 × BitVec 32 × BitVec 32

/-- The little endian value of at most 4 bytes. -/
def le : List Byte → Nat
  | [] => 0
  | b :: l => b.toNat + 256 * le l

/-- The `i`-th 4 byte word of a block; missing bytes are 0. -/
def word (l : List Byte) (i : Nat) : BitVec 32 := BitVec.ofNat 32 (le ((l.drop (4 * i)).take 4))

/-- Adds a block of at most 12 bytes to the accumulators. -/
def absorb (s : State) (l : List Byte) : State := (s.1 + word l 0, s.2.1 + word l 1, s.2.2 + word l 2)

/-- A line of mix(): `x -= z; x ^= rot(z,k); z += y`. -/
def mixLine (k : Nat) (x y z : BitVec 32) : State := ((x - z) ^^^ z.rotateLeft k, y, z + y)

/-- mix(): the lines are applied with the roles of a, b, c rotated. -/
def mix (s : State) : State :=
  let (a, b, c) := s
  let (a, b, c) := mixLine 4 a b c
  let (b, c, a) := mixLine 6 b c a
  let (c, a, b) := mixLine 8 c a b
  let (a, b, c) := mixLine 16 a b c
  let (b, c, a) := mixLine 19 b c a
  let (c, a, b) := mixLine 4 c a b
  (a, b, c)

/-- A line of final(): `x ^= y; x -= rot(y,k)`. -/
def finalLine (k : Nat) (x y : BitVec 32) : BitVec 32 := (x ^^^ y) - y.rotateLeft k

/-- final() -/
def final (s : State) : State :=
  let (a, b, c) := s
  let c := finalLine 14 c b
  let a := finalLine 11 a c
  let b := finalLine 25 b a
  let c := finalLine 16 c b
  let a := finalLine 4 a c
  let b := finalLine 14 b a
  let c := finalLine 24 c b
  (a, b, c)

/-- A non empty key: all the blocks but the last, of 1 to 12 bytes, are mixed. -/
def run (s : State) (l : List Byte) : State :=
  if l.length ≤ 12 then final (absorb s l) else run (mix (absorb s (l.take 12))) (l.drop 12)
termination_by l.length
decreasing_by simp; omega

/-- hashlittle(): the initial value is in `init`. -/
def hashlittle (init : BitVec 32) (l : List Byte) : BitVec 32 :=
  let v := 0xdeadbeef#32 + BitVec.ofNat 32 l.length + init
  if l = [] then v else (run (v, v, v) l).2.2

/-- hashlittle2(): the two initial values are the low and high part of `init`; the results c and b are the low
    and high part of the result. -/
def hashlittle2 (init : BitVec 64) (l : List Byte) : BitVec 64 :=
  let v := 0xdeadbeef#32 + BitVec.ofNat 32 l.length + init.extractLsb' 0 32
  let s := (v, v, v + init.extractLsb' 32 32)
  let s := if l = [] then s else run s l
  s.2.1 ++ s.2.2

/-- The variant for strings: every complete block is mixed, the rest (0 to 11 bytes) goes in final(). -/
def runStr (s : State) (l : List Byte) : State :=
  if l.length < 12 then final (absorb s l) else runStr (mix (absorb s (l.take 12))) (l.drop 12)
termination_by l.length
decreasing_by simp; omega

def hashstr (init : BitVec 32) (l : List Byte) : BitVec 32 :=
  let v := 0xdeadbeef#32 + init
  (runStr (v, v, v) l).2.2

end Lookup3
end Tommy
