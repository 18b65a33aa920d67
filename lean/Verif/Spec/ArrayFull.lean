import Verif.Spec.ArrayImpl
/-!
  The arrays with no restriction on the sizes: the argument of grow is any `tommy_size_t`.
  The memory is the one of the machine: all the live vectors together are less than 2^TOMMY_SIZE_BIT bytes, and an allocation
  over that fails. As the library does not check, the outcome of the call is then `none`, as for the single vectors
  of 2^TOMMY_SIZE_BIT bytes or more of `pcalloc` and `bcalloc`.
-/
set_option autoImplicit false
namespace Tommy

variable [Arch]
namespace ArraySpec

/-- The same array, where any size is a legal argument. -/
def full {T : Type} (I : Impl T) : Impl T := { I with fits := fun n => n < 2 ^ sizeBit }

/-- Any set of different vectors, with cells of `c` bytes, is less than 2^TOMMY_SIZE_BIT bytes. -/
def Bounded (c : Nat) (m : Mem) : Prop := ∀ vs : List Nat, vs.Nodup → c * cellCount m vs < 2 ^ sizeBit

open Classical in
/-- The program `S` in a memory of 2^TOMMY_SIZE_BIT bytes, with cells of `c` bytes. -/
noncomputable def machine {T : Type} (c : Nat) (S : Sys (St T) Ab Op Out) : Sys (St T) Ab Op Out :=
  { S with
    init := fun s a => S.init s a ∧ Bounded c s.mem
    step := fun op s => (S.step op s).bind fun r => if Bounded c r.2.mem then some r else none }

/-- The four arrays, from the memory `m0`. The cells of tommy_array and of tommy_arrayblk are pointers. The ones of
    tommy_arrayof are bytes. The ones of tommy_arrayblkof are bytes, and pointers in its index: all are counted as
    one byte, that makes the machine a bit bigger than the real one. -/
noncomputable abbrev arrayMach (m0 : Mem) := machine ptrSize (sys (full arrayImpl) arrayInit m0)
noncomputable abbrev arrayofMach (es : Nat) (m0 : Mem) := machine 1 (sys (full (arrayofImpl es)) (arrayofInit es) m0)
noncomputable abbrev arrayblkMach (m0 : Mem) := machine ptrSize (sys (full arrayblkImpl) arrayblkInit m0)
noncomputable abbrev arrayblkofMach (es : Nat) (m0 : Mem) := machine 1 (sys (full (arrayblkofImpl es)) (arrayblkofInit es) m0)

end ArraySpec
end Tommy
