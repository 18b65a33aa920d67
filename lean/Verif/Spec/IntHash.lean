/-
  The integer hash functions, as arithmetic on the natural numbers, and the functions that recover the key.
-/
set_option autoImplicit false
namespace Tommy
namespace IntHashSpec

/-- The 4-byte integer hash of Robert Jenkins: products by odd numbers modulo 2^32, and xors with the number multiplied or divided by a
    power of two. -/
def jenkins (k : Nat) : Nat :=
  let k := k * (2 ^ 32 - 63) % 2 ^ 32
  let k := k ^^^ k / 131072
  let k := k * (2 ^ 32 - 511) % 2 ^ 32
  let k := k ^^^ (16 * k % 2 ^ 32)
  let k := k * (2 ^ 32 - 7) % 2 ^ 32
  let k := k ^^^ (1024 * k % 2 ^ 32)
  k ^^^ k / 32768

/-- The 64 bit integer hash of Thomas Wang. -/
def wang (k : Nat) : Nat :=
  let k := (k * (2 ^ 21 - 1) + (2 ^ 64 - 1)) % 2 ^ 64
  let k := k ^^^ k / 16777216
  let k := k * 265 % 2 ^ 64
  let k := k ^^^ k / 16384
  let k := k * 21 % 2 ^ 64
  let k := k ^^^ k / 268435456
  k * (2 ^ 31 + 1) % 2 ^ 64

/-- `n` steps to find `x` such that `f x = y`, when each step makes right some more bits of the approximation: `x := y ^ g x`. -/
def unxor (g : Nat → Nat) (y : Nat) : Nat → Nat
  | 0 => y
  | n + 1 => y ^^^ g (unxor g y n)

/-- The inverse of `jenkins`: the steps are undone from the last one, the products with the inverse modulo 2^32. -/
def unjenkins (k : Nat) : Nat :=
  let k := unxor (· / 32768) k 2
  let k := unxor (1024 * · % 2 ^ 32) k 3
  let k := k * 1227133513 % 2 ^ 32
  let k := unxor (16 * · % 2 ^ 32) k 7
  let k := k * 134480385 % 2 ^ 32
  let k := unxor (· / 131072) k 1
  k * 1090785345 % 2 ^ 32

/-- The inverse of `wang`. -/
def unwang (k : Nat) : Nat :=
  let k := k * 4611686016279904257 % 2 ^ 64
  let k := unxor (· / 268435456) k 2
  let k := k * 14933078535860113213 % 2 ^ 64
  let k := unxor (· / 16384) k 4
  let k := k * 15244667743933553977 % 2 ^ 64
  let k := unxor (· / 16777216) k 2
  (k + 1) * 9223367638806167551 % 2 ^ 64

end IntHashSpec
end Tommy
