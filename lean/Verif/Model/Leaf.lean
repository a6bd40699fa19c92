import Verif.Model.Convert

/-!
# Model of the points of a part with the infinite points
-/
namespace Verif
namespace Convert

/-- `for (k = cINF; k != 0; ++k) points.insert(k)` for one of the sets. (include/load_balancing/GridIntersectionChecker.h:145-149,
BoundsIntersectionChecker.h:76-80, kWaySplitter.h:100-104, sample_partitioner/HyperplaneBipartitioner.h:128-131) -/
def insertInf (fuel : Nat) : List Nat → LpSet → Res LpSet
  | [], s => .done s
  | k :: ks, s => (s.insert fuel k).bind fun r => insertInf fuel ks r.1

/-- The points of part `j` when it is returned. (include/load_balancing/GridIntersectionChecker.h:122-153) -/
def leafSet {T k : Nat} (D fuel : Nat) (s : Dist.Loop T k) (j : Fin k) : Res LpSet :=
  match partSet s j with
  | none => .ub
  | some S => insertInf fuel (Part.infIds D) S

end Convert
end Verif
