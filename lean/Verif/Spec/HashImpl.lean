import Verif.Spec.Hash
import Verif.Model.Hashtable
import Verif.Model.Hashlin
/-! The functions of the three hashtables, as used by the specification. -/
set_option autoImplicit false
namespace Tommy

variable [Arch]
namespace HashSpec

/-- The functions of tommy_hashtable. -/
def hashtableImpl : Impl Hashtable where
  insert := hashtableInsert
  remove := hashtableRemove
  removeExisting := hashtableRemoveExisting
  search := hashtableSearch
  bucket := hashtableBucket
  count := hashtableCount
  foreach := hashtableForeach
  done := hashtableDone

/-- The functions of tommy_hashdyn. -/
def hashdynImpl : Impl Hashdyn where
  insert := hashdynInsert
  remove := hashdynRemove
  removeExisting := hashdynRemoveExisting
  search := hashdynSearch
  bucket := hashdynBucket
  count := hashdynCount
  foreach := hashdynForeach
  done := hashdynDone

/-- The functions of tommy_hashlin. -/
def hashlinImpl : Impl Hashlin where
  insert := hashlinInsert
  remove := hashlinRemove
  removeExisting := hashlinRemoveExisting
  search := hashlinSearch
  bucket := hashlinBucket
  count := hashlinCount
  foreach := hashlinForeach
  done := hashlinDone

end HashSpec
end Tommy
