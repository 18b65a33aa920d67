import Verif.C.Call
import Verif.C.SrcList
import Verif.C.SrcHashtbl
import Verif.C.SrcHashdyn
import Verif.C.SrcHashlin
import Verif.C.SrcHash
import Verif.C.SrcTree
import Verif.C.SrcArray
import Verif.C.SrcAlloc
/-
  The program: all the functions translated.
-/
set_option autoImplicit false
namespace Tommy.C

variable [Arch]

def structs : Structs := fun s => (Src.structsTypes ++ Src.structsList ++ Src.structsHashtbl ++ Src.structsHashdyn ++ Src.structsHashlin ++ Src.structsHash ++ Src.structsTree ++
  Src.structsArray ++ Src.structsAlloc).lookup s

def funs (f : String) : Option Fun :=
  (Src.funsTypes ++ Src.funsList ++ Src.funsHashtbl ++ Src.funsHashdyn ++ Src.funsHashlin ++ Src.funsHash ++ Src.funsTree ++
    Src.funsArray ++ Src.funsAlloc).lookup f

/-- A call of a function of the program, with `ext` the functions called by a pointer. -/
def run (ext : Ext) (f : String) (vs : List Val) : BM Val :=
  match builtin f vs with
  | some x => x
  | none => match funs f with
    | some d => execFun structs ext (run ext) d vs
    | none => fail
partial_fixpoint

/-- The same for x86: tommyhash.c:33-43 has another text for `tommy_le_uint32_read`. -/
def runX86 (ext : Ext) (f : String) (vs : List Val) : BM Val :=
  match builtin f vs with
  | some x => x
  | none => match if f = "tommy_le_uint32_read" then some Src.f_tommy_le_uint32_read_x86 else funs f with
    | some d => execFun structs ext (runX86 ext) d vs
    | none => fail
partial_fixpoint

end Tommy.C
