import Verif.Model.ConcMultiMap
import Verif.Model.Convert

/-!
# Model of `unsafe_copy`

`/repo/include/datastructures/LP_Set.hxx` 652-658 and `LP_MultiMap.hxx` 525-533, which copy the slots of a concurrent set or multimap into
another one. Both are used without other running operations. Neither copies the hash function, whose multiplier is
random for every object (LP_Set.hxx:26-31). `dbg` says whether assertions are compiled in (utils/ASSERT.h:33-41); `none` is a failed
assertion or a read behind the end of the source.
-/
namespace Verif
namespace Copy

/-- `Concurrent_LP_Set::unsafe_copy`. (include/datastructures/LP_Set.hxx:652-658) -/
def set (dbg : Bool) (dst src : ConcSet.Shared) : Option ConcSet.Shared :=
  if dbg && dst.arr.length != src.arr.length then none
  else if src.arr.length < dst.arr.length then none
  else some { dst with arr := src.arr.take dst.arr.length, items := src.items }

/-- `Concurrent_LP_MultiMap::unsafe_copy`: the assertion compares the number of slots with the number of pairs of the
source, and the number of pairs is not copied. (include/datastructures/LP_MultiMap.hxx:525-533) -/
def multimap (dbg : Bool) (dst src : ConcMultiMap.Shared) : Option ConcMultiMap.Shared :=
  if dbg && dst.keys.length != src.items then none
  else if src.keys.length < dst.keys.length then none
  else some { dst with keys := src.keys.take dst.keys.length, vals := src.vals.take dst.keys.length }

/-- `contains` of a concurrent set while no other operation is running: the loop of `get` is that of the sequential set, and
the key it returns is converted to a Boolean. (include/datastructures/LP_Set.hxx:618-636, 332-342) -/
def contains (fuel : Nat) (s : ConcSet.Shared) (k : Nat) : Res Bool := LpSet.containsLoop k s.arr fuel (hash64 s.a k)

end Copy
end Verif
