import Verif.Model.Box
import Mathlib.Algebra.Order.Group.Unbundled.Abs

/-!
# Geometric kernels (src/lib/Geometry.cpp, class `GeometryCore`)

Exact arithmetic over a field. `Predicates::orient` and `Predicates::insphere` (adaptive precision
arithmetic, src/utils/Predicates.cpp, see Model/Orient2, Model/Insphere2, Model/Orient3 and
Model/Insphere3) are replaced by the determinants whose sign they
compute, as written out in the commented-out code of Geometry.cpp.
-/
namespace Verif
namespace Geom
variable {K : Type*} [Field K] [LinearOrder K]

/-- `dot`. (src/lib/Geometry.cpp:45-51) -/
def dot {D : Nat} (a b : Vec D K) : K :=
  (List.finRange D).foldl (fun r d => r + a d * b d) 0

/-- `operator-` on vectors: computes `b - a`. (src/lib/Geometry.cpp:61-67) -/
def vsub {D : Nat} (a b : Vec D K) : Vec D K := fun d => b d - a d

/-! ### Two dimensions -/

/-- `GeometryCore<2>::orientation`, sign of the determinant. (src/lib/Geometry.cpp:86-100) -/
def orient2 (s0 s1 s2 : Vec 2 K) : K :=
  let acx := s0 0 - s2 0
  let bcx := s1 0 - s2 0
  let acy := s0 1 - s2 1
  let bcy := s1 1 - s2 1
  acx * bcy - acy * bcx

/-- `Predicates<2>::insphere` as determinant. (src/lib/Geometry.cpp:150-184) -/
def insphereDet2 (s0 s1 s2 p : Vec 2 K) : K :=
  let adx := s0 0 - p 0
  let ady := s0 1 - p 1
  let bdx := s1 0 - p 0
  let bdy := s1 1 - p 1
  let cdx := s2 0 - p 0
  let cdy := s2 1 - p 1
  let abdet := adx * bdy - bdx * ady
  let bcdet := bdx * cdy - cdx * bdy
  let cadet := cdx * ady - adx * cdy
  let alift := adx * adx + ady * ady
  let blift := bdx * bdx + bdy * bdy
  let clift := cdx * cdx + cdy * cdy
  alift * bcdet + blift * cadet + clift * abdet

/-- `GeometryCore<2>::inSphere`. (src/lib/Geometry.cpp:148-187) -/
def inSphere2 (p s0 s1 s2 : Vec 2 K) : Bool :=
  decide (orient2 s0 s1 s2 * insphereDet2 s0 s1 s2 p ≥ 0)

/-- `GeometryCore<2>::inSimplex`. (src/lib/Geometry.cpp:102-135) -/
def inSimplex2 (p s0 s1 s2 : Vec 2 K) : Bool :=
  let v1 := vsub s1 s0
  let v2 := vsub s2 s0
  let vp := vsub p s0
  let v1v1 := dot v1 v1
  let v1v2 := dot v1 v2
  let v1vp := dot v1 vp
  let v2v2 := dot v2 v2
  let v2vp := dot v2 vp
  let invDenom := 1 / (v1v2 * v1v2 - v1v1 * v2v2)
  let u := -((v1vp * v2v2 - v1v2 * v2vp) * invDenom)
  let v := -((-v1v2 * v1vp + v1v1 * v2vp) * invDenom)
  decide (u ≥ 0) && decide (v ≥ 0) && decide (u + v ≤ 1)

/-- `GeometryCore<2>::sqDistanceToFace`. (src/lib/Geometry.cpp:137-146) -/
def sqDistanceToFace2 (p s0 s1 : Vec 2 K) : K :=
  let v := vsub s1 s0
  let r := vsub p s0
  let n : Vec 2 K := ![v 1, -v 0]
  |dot n r / dot n n|

/-- Denominator of the 2D circumcentre. (src/lib/Geometry.cpp:194-202) -/
def circumDen2 (s0 s1 s2 : Vec 2 K) : K :=
    2 * (s0 0 * (s1 1 - s2 1) + s1 0 * (s2 1 - s0 1) + s2 0 * (s0 1 - s1 1))

/-- Numerator of the first coordinate of the 2D circumcentre; `circumsphere2` divides by `den`.
(src/lib/Geometry.cpp:204-216) -/
def circumNum2_0 (s0 s1 s2 : Vec 2 K) : K :=
    ((s0 0 ^ 2 + s0 1 ^ 2) * (s1 1 - s2 1) + (s1 0 ^ 2 + s1 1 ^ 2) * (s2 1 - s0 1) + (s2 0 ^ 2
      + s2 1 ^ 2) * (s0 1 - s1 1))

/-- Numerator of the second coordinate of the 2D circumcentre. (src/lib/Geometry.cpp:218-230) -/
def circumNum2_1 (s0 s1 s2 : Vec 2 K) : K :=
    ((s0 0 ^ 2 + s0 1 ^ 2) * (s2 0 - s1 0) + (s1 0 ^ 2 + s1 1 ^ 2) * (s0 0 - s2 0) + (s2 0 ^ 2
      + s2 1 ^ 2) * (s1 0 - s0 0))

/-- `GeometryCore<2>::circumsphere`; `sqrt` is a parameter. (src/lib/Geometry.cpp:189-237) -/
def circumsphere2 (sqrt : K → K) (s0 s1 s2 : Vec 2 K) : Sphere 2 K :=
  let den := circumDen2 s0 s1 s2
  let c : Vec 2 K := ![circumNum2_0 s0 s1 s2 / den, circumNum2_1 s0 s1 s2 / den]
  ⟨c, sqrt ((c 0 - s0 0) ^ 2 + (c 1 - s0 1) ^ 2)⟩

/-! ### Three dimensions -/

/-- `GeometryCore<3>::orientation`, sign of the determinant. (src/lib/Geometry.cpp:260-289) -/
def orient3 (s0 s1 s2 s3 : Vec 3 K) : K :=
  let adx := s0 0 - s3 0
  let bdx := s1 0 - s3 0
  let cdx := s2 0 - s3 0
  let ady := s0 1 - s3 1
  let bdy := s1 1 - s3 1
  let cdy := s2 1 - s3 1
  let adz := s0 2 - s3 2
  let bdz := s1 2 - s3 2
  let cdz := s2 2 - s3 2
  adx * (bdy * cdz - bdz * cdy) + bdx * (cdy * adz - cdz * ady) + cdx * (ady * bdz - adz * bdy)

/-- `Predicates<3>::insphere` as determinant. (src/lib/Geometry.cpp:354-407) -/
def insphereDet3 (s0 s1 s2 s3 p : Vec 3 K) : K :=
  let aex := s0 0 - p 0
  let bex := s1 0 - p 0
  let cex := s2 0 - p 0
  let dex := s3 0 - p 0
  let aey := s0 1 - p 1
  let bey := s1 1 - p 1
  let cey := s2 1 - p 1
  let dey := s3 1 - p 1
  let aez := s0 2 - p 2
  let bez := s1 2 - p 2
  let cez := s2 2 - p 2
  let dez := s3 2 - p 2
  let ab := aex * bey - bex * aey
  let bc := bex * cey - cex * bey
  let cd := cex * dey - dex * cey
  let da := dex * aey - aex * dey
  let ac := aex * cey - cex * aey
  let bd := bex * dey - dex * bey
  let abc := aez * bc - bez * ac + cez * ab
  let bcd := bez * cd - cez * bd + dez * bc
  let cda := cez * da + dez * ac + aez * cd
  let dab := dez * ab + aez * bd + bez * da
  let alift := aex * aex + aey * aey + aez * aez
  let blift := bex * bex + bey * bey + bez * bez
  let clift := cex * cex + cey * cey + cez * cez
  let dlift := dex * dex + dey * dey + dez * dez
  (dlift * abc - clift * dab) + (blift * cda - alift * bcd)

/-- `GeometryCore<3>::inSphere`. (src/lib/Geometry.cpp:351-410) -/
def inSphere3 (p s0 s1 s2 s3 : Vec 3 K) : Bool :=
  decide (orient3 s0 s1 s2 s3 * insphereDet3 s0 s1 s2 s3 p ≥ 0)

/-- `GeometryCore<3>::inSimplex`. (src/lib/Geometry.cpp:291-335) -/
def inSimplex3 (p s0 s1 s2 s3 : Vec 3 K) : Bool :=
  let v1 := vsub s1 s0
  let v2 := vsub s2 s0
  let v3 := vsub s3 s0
  let vp := vsub p s0
  let v1v1 := dot v1 v1
  let v1v2 := dot v1 v2
  let v1v3 := dot v1 v3
  let v1vp := dot v1 vp
  let v2v2 := dot v2 v2
  let v2v3 := dot v2 v3
  let v2vp := dot v2 vp
  let v3v3 := dot v3 v3
  let v3vp := dot v3 vp
  let invDenom := 1 / (v1v3 * v1v3 * v2v2 - 2 * v1v2 * v1v3 * v2v3 + v1v1 * v2v3 * v2v3
    + v1v2 * v1v2 * v3v3 - v1v1 * v2v2 * v3v3)
  let u := -((-v1vp * v2v3 * v2v3 + v1v3 * v2v3 * v2vp + v1vp * v2v2 * v3v3 - v1v2 * v2vp * v3v3
    - v1v3 * v2v2 * v3vp + v1v2 * v2v3 * v3vp) * invDenom)
  let v := -((v1v3 * v1vp * v2v3 - v1v3 * v1v3 * v2vp - v1v2 * v1vp * v3v3 + v1v1 * v2vp * v3v3
    + v1v2 * v1v3 * v3vp - v1v1 * v2v3 * v3vp) * invDenom)
  let z := -((-v1v3 * v1vp * v2v2 + v1v2 * v1vp * v2v3 + v1v2 * v1v3 * v2vp - v1v1 * v2v3 * v2vp
    - v1v2 * v1v2 * v3vp + v1v1 * v2v2 * v3vp) * invDenom)
  decide (u ≥ 0) && decide (v ≥ 0) && decide (z ≥ 0) && decide (u + v + z ≤ 1)

/-- `GeometryCore<3>::sqDistanceToFace`. (src/lib/Geometry.cpp:337-349) -/
def sqDistanceToFace3 (p s0 s1 s2 : Vec 3 K) : K :=
  let u := vsub s1 s0
  let v := vsub s2 s0
  let w := vsub p s0
  let n : Vec 3 K := ![u 1 * v 2 - u 2 * v 1, u 2 * v 0 - u 0 * v 2, u 0 * v 1 - u 1 * v 0]
  |dot w n / dot n n|

/-- Denominator of the 3D circumcentre. (src/lib/Geometry.cpp:417-464) -/
def circumDen3 (s0 s1 s2 s3 : Vec 3 K) : K :=
    2 * (s0 0 * (s2 1 * s3 2 + s1 1 * (s2 2 - s3 2) - s3 1 * s2 2 - (s2 1 - s3 1) * s1 2) -
      s1 0 * (s2 1 * s3 2 - s3 1 * s2 2) - s0 1 * (s2 0 * s3 2 + s1 0 * (s2 2 - s3 2) - s3 0 *
      s2 2 - (s2 0 - s3 0) * s1 2) + s1 1 * (s2 0 * s3 2 - s3 0 * s2 2) + s0 2 * (s2 0 * s3 1 +
      s1 0 * (s2 1 - s3 1) - s3 0 * s2 1 - (s2 0 - s3 0) * s1 1) - s1 2 * (s2 0 * s3 1 - s3 0 *
      s2 1))

/-- Numerator of the first coordinate of the 3D circumcentre. (src/lib/Geometry.cpp:466-547) -/
def circumNum3_0 (s0 s1 s2 s3 : Vec 3 K) : K :=
    (-s0 1 * (-s2 2 * (s3 2 ^ 2 + s3 1 ^ 2 + s3 0 ^ 2) - s1 2 * (-s3 2 ^ 2 + s2 2 ^ 2 -
      s3 1 ^ 2 + s2 1 ^ 2 - s3 0 ^ 2 + s2 0 ^ 2) + (s2 2 ^ 2 + s2 1 ^ 2 + s2 0 ^ 2) * s3 2 +
      (s1 2 ^ 2 + s1 1 ^ 2 + s1 0 ^ 2) * (s2 2 - s3 2)) + s1 1 * ((s2 2 ^ 2 + s2 1 ^ 2 +
      s2 0 ^ 2) * s3 2 - s2 2 * (s3 2 ^ 2 + s3 1 ^ 2 + s3 0 ^ 2)) + s0 2 * (-s2 1 * (s3 2 ^ 2 +
      s3 1 ^ 2 + s3 0 ^ 2) - s1 1 * (-s3 2 ^ 2 + s2 2 ^ 2 - s3 1 ^ 2 + s2 1 ^ 2 - s3 0 ^ 2 +
      s2 0 ^ 2) + s3 1 * (s2 2 ^ 2 + s2 1 ^ 2 + s2 0 ^ 2) + (s2 1 - s3 1) * (s1 2 ^ 2 +
      s1 1 ^ 2 + s1 0 ^ 2)) - s1 2 * (s3 1 * (s2 2 ^ 2 + s2 1 ^ 2 + s2 0 ^ 2) - s2 1 *
      (s3 2 ^ 2 + s3 1 ^ 2 + s3 0 ^ 2)) + (s0 2 ^ 2 + s0 1 ^ 2 + s0 0 ^ 2) * (s2 1 * s3 2 +
      s1 1 * (s2 2 - s3 2) - s3 1 * s2 2 - (s2 1 - s3 1) * s1 2) - (s1 2 ^ 2 + s1 1 ^ 2 +
      s1 0 ^ 2) * (s2 1 * s3 2 - s3 1 * s2 2))

/-- Numerator of the second coordinate of the 3D circumcentre. (src/lib/Geometry.cpp:549-630) -/
def circumNum3_1 (s0 s1 s2 s3 : Vec 3 K) : K :=
    (s0 0 * (-s2 2 * (s3 2 ^ 2 + s3 1 ^ 2 + s3 0 ^ 2) - s1 2 * (-s3 2 ^ 2 + s2 2 ^ 2 - s3 1 ^ 2
      + s2 1 ^ 2 - s3 0 ^ 2 + s2 0 ^ 2) + (s2 2 ^ 2 + s2 1 ^ 2 + s2 0 ^ 2) * s3 2 + (s1 2 ^ 2 +
      s1 1 ^ 2 + s1 0 ^ 2) * (s2 2 - s3 2)) - s1 0 * ((s2 2 ^ 2 + s2 1 ^ 2 + s2 0 ^ 2) * s3 2 -
      s2 2 * (s3 2 ^ 2 + s3 1 ^ 2 + s3 0 ^ 2)) - s0 2 * (-s2 0 * (s3 2 ^ 2 + s3 1 ^ 2 +
      s3 0 ^ 2) - s1 0 * (-s3 2 ^ 2 + s2 2 ^ 2 - s3 1 ^ 2 + s2 1 ^ 2 - s3 0 ^ 2 + s2 0 ^ 2) +
      s3 0 * (s2 2 ^ 2 + s2 1 ^ 2 + s2 0 ^ 2) + (s2 0 - s3 0) * (s1 2 ^ 2 + s1 1 ^ 2 +
      s1 0 ^ 2)) + s1 2 * (s3 0 * (s2 2 ^ 2 + s2 1 ^ 2 + s2 0 ^ 2) - s2 0 * (s3 2 ^ 2 +
      s3 1 ^ 2 + s3 0 ^ 2)) - (s0 2 ^ 2 + s0 1 ^ 2 + s0 0 ^ 2) * (s2 0 * s3 2 + s1 0 * (s2 2 -
      s3 2) - s3 0 * s2 2 - (s2 0 - s3 0) * s1 2) + (s1 2 ^ 2 + s1 1 ^ 2 + s1 0 ^ 2) * (s2 0 *
      s3 2 - s3 0 * s2 2))

/-- Numerator of the third coordinate of the 3D circumcentre. (src/lib/Geometry.cpp:632-713) -/
def circumNum3_2 (s0 s1 s2 s3 : Vec 3 K) : K :=
    (-s0 0 * (-s2 1 * (s3 2 ^ 2 + s3 1 ^ 2 + s3 0 ^ 2) - s1 1 * (-s3 2 ^ 2 + s2 2 ^ 2 -
      s3 1 ^ 2 + s2 1 ^ 2 - s3 0 ^ 2 + s2 0 ^ 2) + s3 1 * (s2 2 ^ 2 + s2 1 ^ 2 + s2 0 ^ 2) +
      (s2 1 - s3 1) * (s1 2 ^ 2 + s1 1 ^ 2 + s1 0 ^ 2)) + s1 0 * (s3 1 * (s2 2 ^ 2 + s2 1 ^ 2 +
      s2 0 ^ 2) - s2 1 * (s3 2 ^ 2 + s3 1 ^ 2 + s3 0 ^ 2)) + s0 1 * (-s2 0 * (s3 2 ^ 2 +
      s3 1 ^ 2 + s3 0 ^ 2) - s1 0 * (-s3 2 ^ 2 + s2 2 ^ 2 - s3 1 ^ 2 + s2 1 ^ 2 - s3 0 ^ 2 +
      s2 0 ^ 2) + s3 0 * (s2 2 ^ 2 + s2 1 ^ 2 + s2 0 ^ 2) + (s2 0 - s3 0) * (s1 2 ^ 2 +
      s1 1 ^ 2 + s1 0 ^ 2)) - s1 1 * (s3 0 * (s2 2 ^ 2 + s2 1 ^ 2 + s2 0 ^ 2) - s2 0 *
      (s3 2 ^ 2 + s3 1 ^ 2 + s3 0 ^ 2)) - (s2 0 * s3 1 - s3 0 * s2 1) * (s1 2 ^ 2 + s1 1 ^ 2 +
      s1 0 ^ 2) + (s2 0 * s3 1 + s1 0 * (s2 1 - s3 1) - s3 0 * s2 1 - (s2 0 - s3 0) * s1 1) *
      (s0 2 ^ 2 + s0 1 ^ 2 + s0 0 ^ 2))

/-- `GeometryCore<3>::circumsphere`; `sqrt` is a parameter. (src/lib/Geometry.cpp:412-722) -/
def circumsphere3 (sqrt : K → K) (s0 s1 s2 s3 : Vec 3 K) : Sphere 3 K :=
  let den := circumDen3 s0 s1 s2 s3
  let c : Vec 3 K := ![circumNum3_0 s0 s1 s2 s3 / den, circumNum3_1 s0 s1 s2 s3 / den,
    circumNum3_2 s0 s1 s2 s3 / den]
  ⟨c, sqrt ((c 0 - s0 0) ^ 2 + (c 1 - s0 1) ^ 2 + (c 2 - s0 2) ^ 2)⟩

end Geom
end Verif
