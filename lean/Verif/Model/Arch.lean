/-
  The two builds of the library: with `tommy_size_t` and pointers of 32 or of 64 bits (tommytypes.h:37-67).
-/
set_option autoImplicit false
namespace Tommy

/-- tommytypes.h:37-67: the sizes of the build. A pointer has the size of `tommy_size_t`. -/
class inductive Arch
  | w32
  | w64

/-- tommytypes.h:44, 48, 58, 62 `TOMMY_SIZE_BIT`. -/
def sizeBit [a : Arch] : Nat := match a with
  | .w32 => 32
  | .w64 => 64

variable [Arch]

/-- `sizeof(void*)` and `sizeof(tommy_size_t)`. -/
def ptrSize : Nat := sizeBit / 8

/-- tommytypes.h:194-220 `sizeof(tommy_node)`: three pointers and a `tommy_size_t`. -/
def nodeSize : Nat := 4 * ptrSize

/-- Arithmetic of `tommy_size_t`: the result is reduced modulo 2^32 or 2^64. -/
def sizeT (n : Nat) : Nat := n % 2 ^ sizeBit

/-- `--n` on a `tommy_size_t`. -/
def decT (n : Nat) : Nat := if n = 0 then 2 ^ sizeBit - 1 else n - 1

end Tommy
