import Verif.Model.IEEE
import Verif.Model.GeomCore

/-!
# The point in simplex test in floating point arithmetic

`GeometryCore<2>::inSimplex` and `GeometryCore<3>::inSimplex` (`/repo/src/lib/Geometry.cpp`): every operation is the exact one followed by the
rounding function `rd`. A division by zero is not modelled, the statements exclude it.
-/
namespace Verif
namespace FPM

/-- Rounded operations. (src/lib/Geometry.cpp:45-67, 102-135, 291-335) -/
def mulR (rd : ℚ → ℚ) (a b : ℚ) : ℚ := rd (a * b)
def addR (rd : ℚ → ℚ) (a b : ℚ) : ℚ := rd (a + b)
def subR (rd : ℚ → ℚ) (a b : ℚ) : ℚ := rd (a - b)

/-- `dot`. (src/lib/Geometry.cpp:45-51) -/
def dotR {D : Nat} (rd : ℚ → ℚ) (a b : Vec D ℚ) : ℚ := (List.finRange D).foldl (fun r d => addR rd r (mulR rd (a d) (b d))) 0

/-- `operator-` on vectors: computes `b - a`. (src/lib/Geometry.cpp:61-67) -/
def vsubR {D : Nat} (rd : ℚ → ℚ) (a b : Vec D ℚ) : Vec D ℚ := fun d => subR rd (b d) (a d)

/-- `GeometryCore<2>::inSimplex`. (src/lib/Geometry.cpp:102-135) -/
def inSimplex2 (rd : ℚ → ℚ) (p s0 s1 s2 : Vec 2 ℚ) : Bool :=
  let v1 := vsubR rd s1 s0
  let v2 := vsubR rd s2 s0
  let vp := vsubR rd p s0
  let v1v1 := dotR rd v1 v1
  let v1v2 := dotR rd v1 v2
  let v1vp := dotR rd v1 vp
  let v2v2 := dotR rd v2 v2
  let v2vp := dotR rd v2 vp
  let invDenom := rd (1 / subR rd (mulR rd v1v2 v1v2) (mulR rd v1v1 v2v2))
  let u := -mulR rd (subR rd (mulR rd v1vp v2v2) (mulR rd v1v2 v2vp)) invDenom
  let v := -mulR rd (addR rd (mulR rd (-v1v2) v1vp) (mulR rd v1v1 v2vp)) invDenom
  decide (u ≥ 0) && decide (v ≥ 0) && decide (addR rd u v ≤ 1)

/-- `GeometryCore<3>::inSimplex`. (src/lib/Geometry.cpp:291-335) -/
def inSimplex3 (rd : ℚ → ℚ) (p s0 s1 s2 s3 : Vec 3 ℚ) : Bool :=
  let v1 := vsubR rd s1 s0
  let v2 := vsubR rd s2 s0
  let v3 := vsubR rd s3 s0
  let vp := vsubR rd p s0
  let v1v1 := dotR rd v1 v1
  let v1v2 := dotR rd v1 v2
  let v1v3 := dotR rd v1 v3
  let v1vp := dotR rd v1 vp
  let v2v2 := dotR rd v2 v2
  let v2v3 := dotR rd v2 v3
  let v2vp := dotR rd v2 vp
  let v3v3 := dotR rd v3 v3
  let v3vp := dotR rd v3 vp
  let m3 := fun a b c => mulR rd (mulR rd a b) c
  let invDenom := rd (1 / subR rd (addR rd (addR rd (subR rd (m3 v1v3 v1v3 v2v2) (mulR rd (m3 2 v1v2 v1v3) v2v3))
    (m3 v1v1 v2v3 v2v3)) (m3 v1v2 v1v2 v3v3)) (m3 v1v1 v2v2 v3v3))
  let u := -mulR rd (addR rd (subR rd (subR rd (addR rd (addR rd (m3 (-v1vp) v2v3 v2v3) (m3 v1v3 v2v3 v2vp))
    (m3 v1vp v2v2 v3v3)) (m3 v1v2 v2vp v3v3)) (m3 v1v3 v2v2 v3vp)) (m3 v1v2 v2v3 v3vp)) invDenom
  let v := -mulR rd (subR rd (addR rd (addR rd (subR rd (subR rd (m3 v1v3 v1vp v2v3) (m3 v1v3 v1v3 v2vp))
    (m3 v1v2 v1vp v3v3)) (m3 v1v1 v2vp v3v3)) (m3 v1v2 v1v3 v3vp)) (m3 v1v1 v2v3 v3vp)) invDenom
  let z := -mulR rd (addR rd (subR rd (subR rd (addR rd (addR rd (m3 (-v1v3) v1vp v2v2) (m3 v1v2 v1vp v2v3))
    (m3 v1v2 v1v3 v2vp)) (m3 v1v1 v2v3 v2vp)) (m3 v1v2 v1v2 v3vp)) (m3 v1v1 v2v2 v3vp)) invDenom
  decide (u ≥ 0) && decide (v ≥ 0) && decide (z ≥ 0) && decide (addR rd (addR rd u v) z ≤ 1)

end FPM
end Verif
