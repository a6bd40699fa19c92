import Verif.Model.ConcSet
import Verif.Model.Distribute

/-!
# Model of the conversion of a concurrent set into a sequential one

`/repo/include/datastructures/LP_Set.hxx` 791-796: `LP_Set(Concurrent_LP_Set &&)` takes over the array, whose atomic
slots are read as plain ones, the number of items and the hash function. The state of the set that is moved from is not
modelled: the code does not use it again.
-/
namespace Verif
namespace Convert

/-- `LP_Set(Concurrent_LP_Set &&)`; `growing` is the template parameter of the sequential set. (LP_Set.hxx:791-796) -/
def toSeq (growing : Bool) (s : ConcSet.Shared) : LpSet := { growing := growing, arr := s.arr, items := s.items, a := s.a }

/-- `idss.emplace_back(std::move(ids.data()))`: `data()` is the table of the readers, and the sequential set of a part
is made of it. (load_balancing/GridIntersectionChecker.h:122-124, datastructures/Growing_LP.hxx:58-60, Geometry.h:50) -/
def partSet {T k : Nat} (s : Dist.Loop T k) (j : Fin k) : Option LpSet :=
  ((s.c j).sh.tabs[(s.c j).sh.tr]?).map fun tb => toSeq true tb.t

end Convert
end Verif
