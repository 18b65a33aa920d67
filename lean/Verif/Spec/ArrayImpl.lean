import Verif.Spec.Array
import Verif.Model.Arrayblk
/-! The four arrays as instances of the specification. -/
set_option autoImplicit false
namespace Tommy

variable [Arch]
namespace ArraySpec

/-- An array with segments of exponential size, of elements of `bytes` bytes, can grow up to `n` elements: the
    size rounded up to a power of 2, at least 64, is less than 2^TOMMY_SIZE_BIT, and is less than 2^TOMMY_SIZE_BIT bytes. -/
def fitsSeg (bytes n : Nat) : Prop := ∃ k, 6 ≤ k ∧ k < sizeBit ∧ n ≤ 2 ^ k ∧ 2 ^ k * bytes < 2 ^ sizeBit

def arrayImpl : Impl Arr where
  es := 1
  fits := fitsSeg ptrSize
  grow := arrayGrow
  ref := arrayRef
  ptr := some (arraySet, arrayGet, arrayInsert)
  size := arraySize
  usage := arrayMemoryUsage
  done := arrayDone

def arrayofImpl (es : Nat) : Impl ArrOf where
  es := es
  fits := fitsSeg es
  grow := arrayofGrow
  ref := arrayofRef
  ptr := none
  size := arrayofSize
  usage := arrayofMemoryUsage
  done := arrayofDone

/-- An array with blocks can grow up to `n` elements: `n` rounded up to a multiple of 4096 does not overflow. -/
def fitsBlk (n : Nat) : Prop := n + 4096 ≤ 2 ^ sizeBit

def arrayblkImpl : Impl ArrBlk where
  es := 1
  fits := fitsBlk
  grow := arrayblkGrow
  ref := arrayblkRef
  ptr := some (arrayblkSet, arrayblkGet, arrayblkInsert)
  size := arrayblkSize
  usage := arrayblkMemoryUsage
  done := arrayblkDone

def arrayblkofImpl (es : Nat) : Impl ArrBlkOf where
  es := es
  fits := fitsBlk
  grow := arrayblkofGrow
  ref := arrayblkofRef
  ptr := none
  size := arrayblkofSize
  usage := arrayblkofMemoryUsage
  done := arrayblkofDone

end ArraySpec
end Tommy
