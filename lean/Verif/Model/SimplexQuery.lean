import Verif.Model.GeomCore
import Verif.Model.Res

/-!
# Distances to the faces of a simplex

`dSimplex::sqDistanceToFace` and `GeometryHelper<2>`, `GeometryHelper<3>` (`/repo/include/Geometry.h` 588-594, 989-1022,
1042-1078): the simplex has the ids of its vertices, the points are in a container. Coordinates are elements of an ordered
field; the exception of the default case is `ub`. The container is a function.
-/
namespace Verif
namespace Geom

variable {K : Type*} [Field K] [LinearOrder K]

/-- `GeometryHelper<2>::sqDistanceToFace`. (include/Geometry.h:1007-1022) -/
def faceDist2 (pts : Nat → Vec 2 K) (v : Fin 3 → Nat) (d : Nat) (p : Vec 2 K) : Res K :=
  match d with
  | 0 => .done (sqDistanceToFace2 p (pts (v 1)) (pts (v 2)))
  | 1 => .done (sqDistanceToFace2 p (pts (v 0)) (pts (v 2)))
  | 2 => .done (sqDistanceToFace2 p (pts (v 0)) (pts (v 1)))
  | _ => .ub

/-- `GeometryHelper<3>::sqDistanceToFace`. (include/Geometry.h:1061-1078) -/
def faceDist3 (pts : Nat → Vec 3 K) (v : Fin 4 → Nat) (d : Nat) (p : Vec 3 K) : Res K :=
  match d with
  | 0 => .done (sqDistanceToFace3 p (pts (v 1)) (pts (v 2)) (pts (v 3)))
  | 1 => .done (sqDistanceToFace3 p (pts (v 0)) (pts (v 2)) (pts (v 3)))
  | 2 => .done (sqDistanceToFace3 p (pts (v 0)) (pts (v 1)) (pts (v 3)))
  | 3 => .done (sqDistanceToFace3 p (pts (v 0)) (pts (v 1)) (pts (v 2)))
  | _ => .ub

end Geom
end Verif
