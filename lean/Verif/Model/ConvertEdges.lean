import Verif.Model.Convert
import Verif.Model.EdgeLoop

/-!
# The sets of the edge that are handed on
-/
namespace Verif
namespace Convert

/-- `Point_Ids(std::move(edgePointIds.data()))` (`true`) and `Simplex_Ids(std::move(edgeSimplexIds.data()))` (`false`).
(src/lib/DCTriangulator.cpp:585-589, 602; include/LoadBalancedDCTriangulator.tpp:668, 684; include/datastructures/Growing_LP.hxx:58-60) -/
def edgeSet {N P : Nat} (s : Edges.Loop N P) (j : Bool) : Option LpSet :=
  ((s.c j).sh.tabs[(s.c j).sh.tr]?).map fun tb => toSeq true tb.t

end Convert
end Verif
