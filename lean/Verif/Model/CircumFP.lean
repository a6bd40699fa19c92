import Verif.Model.InSimplexFP
import Verif.Model.Box

/-!
# Circumspheres and boxes in floating point arithmetic

`GeometryCore<2>::circumsphere`, `GeometryCore<3>::circumsphere` (`/repo/src/lib/Geometry.cpp`) and `dBox::intersects` (`/repo/include/Geometry.h`) as `double` computes them: every
operation is the exact one followed by the rounding function `rd`. The library functions are the parameters `sq` for `pow(_, 2)` and `rt` for `sqrt`.
A division by zero is not modelled, the statements exclude it.
-/
namespace Verif
namespace FPM

/-- `GeometryCore<2>::circumsphere`. (src/lib/Geometry.cpp:189-237) -/
def circumsphere2R (rd sq rt : ℚ → ℚ) (s0 s1 s2 : Vec 2 ℚ) : Sphere 2 ℚ :=
  let den := mulR rd 2 (addR rd (addR rd (mulR rd (s0 0) (subR rd (s1 1) (s2 1))) (mulR rd (s1 0) (subR rd (s2 1) (s0 1))))
    (mulR rd (s2 0) (subR rd (s0 1) (s1 1))))
  let c : Vec 2 ℚ := ![
    rd (addR rd (addR rd (mulR rd (addR rd (sq (s0 0)) (sq (s0 1))) (subR rd (s1 1) (s2 1)))
      (mulR rd (addR rd (sq (s1 0)) (sq (s1 1))) (subR rd (s2 1) (s0 1))))
      (mulR rd (addR rd (sq (s2 0)) (sq (s2 1))) (subR rd (s0 1) (s1 1))) / den),
    rd (addR rd (addR rd (mulR rd (addR rd (sq (s0 0)) (sq (s0 1))) (subR rd (s2 0) (s1 0)))
      (mulR rd (addR rd (sq (s1 0)) (sq (s1 1))) (subR rd (s0 0) (s2 0))))
      (mulR rd (addR rd (sq (s2 0)) (sq (s2 1))) (subR rd (s1 0) (s0 0))) / den)]
  ⟨c, rt (addR rd (sq (subR rd (c 0) (s0 0))) (sq (subR rd (c 1) (s0 1))))⟩

/-! ### Space -/

section
variable (rd sq : ℚ → ℚ)

set_option hygiene false in
local infixl:65 " +ᵣ " => addR rd
set_option hygiene false in
local infixl:65 " -ᵣ " => subR rd
set_option hygiene false in
local infixl:70 " *ᵣ " => mulR rd

/-- Denominator of the circumcentre in space. (src/lib/Geometry.cpp:417-464) -/
def circumDen3R (s0 s1 s2 s3 : Vec 3 ℚ) : ℚ :=
  2 *ᵣ (s0 0 *ᵣ (s2 1 *ᵣ s3 2 +ᵣ s1 1 *ᵣ (s2 2 -ᵣ s3 2) -ᵣ s3 1 *ᵣ s2 2 -ᵣ (s2 1 -ᵣ s3 1) *ᵣ s1 2) -ᵣ s1 0 *ᵣ (s2 1 *ᵣ s3 2 -ᵣ s3 1 *ᵣ s2 2) -ᵣ s0 1
    *ᵣ (s2 0 *ᵣ s3 2 +ᵣ s1 0 *ᵣ (s2 2 -ᵣ s3 2) -ᵣ s3 0 *ᵣ s2 2 -ᵣ (s2 0 -ᵣ s3 0) *ᵣ s1 2) +ᵣ s1 1 *ᵣ (s2 0 *ᵣ s3 2 -ᵣ s3 0 *ᵣ s2 2) +ᵣ s0 2 *ᵣ (s2 0
    *ᵣ s3 1 +ᵣ s1 0 *ᵣ (s2 1 -ᵣ s3 1) -ᵣ s3 0 *ᵣ s2 1 -ᵣ (s2 0 -ᵣ s3 0) *ᵣ s1 1) -ᵣ s1 2 *ᵣ (s2 0 *ᵣ s3 1 -ᵣ s3 0 *ᵣ s2 1))

/-- Numerator of the first coordinate. (src/lib/Geometry.cpp:466-547) -/
def circumNum3R_0 (s0 s1 s2 s3 : Vec 3 ℚ) : ℚ :=
  (-s0 1 *ᵣ (-s2 2 *ᵣ (sq (s3 2) +ᵣ sq (s3 1) +ᵣ sq (s3 0)) -ᵣ s1 2 *ᵣ (-sq (s3 2) +ᵣ sq (s2 2) -ᵣ sq (s3 1) +ᵣ sq (s2 1) -ᵣ sq (s3 0) +ᵣ sq (s2 0))
    +ᵣ (sq (s2 2) +ᵣ sq (s2 1) +ᵣ sq (s2 0)) *ᵣ s3 2 +ᵣ (sq (s1 2) +ᵣ sq (s1 1) +ᵣ sq (s1 0)) *ᵣ (s2 2 -ᵣ s3 2)) +ᵣ s1 1 *ᵣ ((sq (s2 2) +ᵣ sq (s2 1)
    +ᵣ sq (s2 0)) *ᵣ s3 2 -ᵣ s2 2 *ᵣ (sq (s3 2) +ᵣ sq (s3 1) +ᵣ sq (s3 0))) +ᵣ s0 2 *ᵣ (-s2 1 *ᵣ (sq (s3 2) +ᵣ sq (s3 1) +ᵣ sq (s3 0)) -ᵣ s1 1 *ᵣ (-sq
    (s3 2) +ᵣ sq (s2 2) -ᵣ sq (s3 1) +ᵣ sq (s2 1) -ᵣ sq (s3 0) +ᵣ sq (s2 0)) +ᵣ s3 1 *ᵣ (sq (s2 2) +ᵣ sq (s2 1) +ᵣ sq (s2 0)) +ᵣ (s2 1 -ᵣ s3 1) *ᵣ (sq
    (s1 2) +ᵣ sq (s1 1) +ᵣ sq (s1 0))) -ᵣ s1 2 *ᵣ (s3 1 *ᵣ (sq (s2 2) +ᵣ sq (s2 1) +ᵣ sq (s2 0)) -ᵣ s2 1 *ᵣ (sq (s3 2) +ᵣ sq (s3 1) +ᵣ sq (s3 0))) +ᵣ
    (sq (s0 2) +ᵣ sq (s0 1) +ᵣ sq (s0 0)) *ᵣ (s2 1 *ᵣ s3 2 +ᵣ s1 1 *ᵣ (s2 2 -ᵣ s3 2) -ᵣ s3 1 *ᵣ s2 2 -ᵣ (s2 1 -ᵣ s3 1) *ᵣ s1 2) -ᵣ (sq (s1 2) +ᵣ sq
    (s1 1) +ᵣ sq (s1 0)) *ᵣ (s2 1 *ᵣ s3 2 -ᵣ s3 1 *ᵣ s2 2))

/-- Numerator of the second coordinate. (src/lib/Geometry.cpp:549-630) -/
def circumNum3R_1 (s0 s1 s2 s3 : Vec 3 ℚ) : ℚ :=
  (s0 0 *ᵣ (-s2 2 *ᵣ (sq (s3 2) +ᵣ sq (s3 1) +ᵣ sq (s3 0)) -ᵣ s1 2 *ᵣ (-sq (s3 2) +ᵣ sq (s2 2) -ᵣ sq (s3 1) +ᵣ sq (s2 1) -ᵣ sq (s3 0) +ᵣ sq (s2 0)) +ᵣ
    (sq (s2 2) +ᵣ sq (s2 1) +ᵣ sq (s2 0)) *ᵣ s3 2 +ᵣ (sq (s1 2) +ᵣ sq (s1 1) +ᵣ sq (s1 0)) *ᵣ (s2 2 -ᵣ s3 2)) -ᵣ s1 0 *ᵣ ((sq (s2 2) +ᵣ sq (s2 1) +ᵣ
    sq (s2 0)) *ᵣ s3 2 -ᵣ s2 2 *ᵣ (sq (s3 2) +ᵣ sq (s3 1) +ᵣ sq (s3 0))) -ᵣ s0 2 *ᵣ (-s2 0 *ᵣ (sq (s3 2) +ᵣ sq (s3 1) +ᵣ sq (s3 0)) -ᵣ s1 0 *ᵣ (-sq
    (s3 2) +ᵣ sq (s2 2) -ᵣ sq (s3 1) +ᵣ sq (s2 1) -ᵣ sq (s3 0) +ᵣ sq (s2 0)) +ᵣ s3 0 *ᵣ (sq (s2 2) +ᵣ sq (s2 1) +ᵣ sq (s2 0)) +ᵣ (s2 0 -ᵣ s3 0) *ᵣ (sq
    (s1 2) +ᵣ sq (s1 1) +ᵣ sq (s1 0))) +ᵣ s1 2 *ᵣ (s3 0 *ᵣ (sq (s2 2) +ᵣ sq (s2 1) +ᵣ sq (s2 0)) -ᵣ s2 0 *ᵣ (sq (s3 2) +ᵣ sq (s3 1) +ᵣ sq (s3 0))) -ᵣ
    (sq (s0 2) +ᵣ sq (s0 1) +ᵣ sq (s0 0)) *ᵣ (s2 0 *ᵣ s3 2 +ᵣ s1 0 *ᵣ (s2 2 -ᵣ s3 2) -ᵣ s3 0 *ᵣ s2 2 -ᵣ (s2 0 -ᵣ s3 0) *ᵣ s1 2) +ᵣ (sq (s1 2) +ᵣ sq
    (s1 1) +ᵣ sq (s1 0)) *ᵣ (s2 0 *ᵣ s3 2 -ᵣ s3 0 *ᵣ s2 2))

/-- Numerator of the third coordinate. (src/lib/Geometry.cpp:632-713) -/
def circumNum3R_2 (s0 s1 s2 s3 : Vec 3 ℚ) : ℚ :=
  (-s0 0 *ᵣ (-s2 1 *ᵣ (sq (s3 2) +ᵣ sq (s3 1) +ᵣ sq (s3 0)) -ᵣ s1 1 *ᵣ (-sq (s3 2) +ᵣ sq (s2 2) -ᵣ sq (s3 1) +ᵣ sq (s2 1) -ᵣ sq (s3 0) +ᵣ sq (s2 0))
    +ᵣ s3 1 *ᵣ (sq (s2 2) +ᵣ sq (s2 1) +ᵣ sq (s2 0)) +ᵣ (s2 1 -ᵣ s3 1) *ᵣ (sq (s1 2) +ᵣ sq (s1 1) +ᵣ sq (s1 0))) +ᵣ s1 0 *ᵣ (s3 1 *ᵣ (sq (s2 2) +ᵣ sq
    (s2 1) +ᵣ sq (s2 0)) -ᵣ s2 1 *ᵣ (sq (s3 2) +ᵣ sq (s3 1) +ᵣ sq (s3 0))) +ᵣ s0 1 *ᵣ (-s2 0 *ᵣ (sq (s3 2) +ᵣ sq (s3 1) +ᵣ sq (s3 0)) -ᵣ s1 0 *ᵣ (-sq
    (s3 2) +ᵣ sq (s2 2) -ᵣ sq (s3 1) +ᵣ sq (s2 1) -ᵣ sq (s3 0) +ᵣ sq (s2 0)) +ᵣ s3 0 *ᵣ (sq (s2 2) +ᵣ sq (s2 1) +ᵣ sq (s2 0)) +ᵣ (s2 0 -ᵣ s3 0) *ᵣ (sq
    (s1 2) +ᵣ sq (s1 1) +ᵣ sq (s1 0))) -ᵣ s1 1 *ᵣ (s3 0 *ᵣ (sq (s2 2) +ᵣ sq (s2 1) +ᵣ sq (s2 0)) -ᵣ s2 0 *ᵣ (sq (s3 2) +ᵣ sq (s3 1) +ᵣ sq (s3 0))) -ᵣ
    (s2 0 *ᵣ s3 1 -ᵣ s3 0 *ᵣ s2 1) *ᵣ (sq (s1 2) +ᵣ sq (s1 1) +ᵣ sq (s1 0)) +ᵣ (s2 0 *ᵣ s3 1 +ᵣ s1 0 *ᵣ (s2 1 -ᵣ s3 1) -ᵣ s3 0 *ᵣ s2 1 -ᵣ (s2 0 -ᵣ s3
    0) *ᵣ s1 1) *ᵣ (sq (s0 2) +ᵣ sq (s0 1) +ᵣ sq (s0 0)))

end

/-- `GeometryCore<3>::circumsphere`. (src/lib/Geometry.cpp:412-722) -/
def circumsphere3R (rd sq rt : ℚ → ℚ) (s0 s1 s2 s3 : Vec 3 ℚ) : Sphere 3 ℚ :=
  let den := circumDen3R rd s0 s1 s2 s3
  let c : Vec 3 ℚ := ![rd (circumNum3R_0 rd sq s0 s1 s2 s3 / den), rd (circumNum3R_1 rd sq s0 s1 s2 s3 / den), rd (circumNum3R_2 rd sq s0 s1 s2 s3 / den)]
  ⟨c, rt (addR rd (addR rd (sq (subR rd (c 0) (s0 0))) (sq (subR rd (c 1) (s0 1)))) (sq (subR rd (c 2) (s0 2))))⟩

/-- The loop of `dBox::intersects`; `none`: returned false inside the loop. (include/Geometry.h:140-148) -/
def intersectsLoopR {D : Nat} (rd : ℚ → ℚ) (b : Box D ℚ) (s : Sphere D ℚ) : List (Fin D) → ℚ → Option ℚ
  | [], dist => some dist
  | d :: ds, dist =>
      let e := addR rd (max (subR rd (b.low d) (s.center d)) 0) (max (subR rd (s.center d) (b.high d)) 0)
      if s.radius < e then none else intersectsLoopR rd b s ds (addR rd dist (mulR rd e e))

/-- `dBox::intersects(sphere)`. (include/Geometry.h:135-154) -/
def intersectsR {D : Nat} (rd : ℚ → ℚ) (b : Box D ℚ) (s : Sphere D ℚ) : Bool :=
  let r2 := mulR rd s.radius s.radius
  match intersectsLoopR rd b s (List.finRange D) 0 with
  | none => false
  | some dist => decide (dist ≤ r2)

end FPM
end Verif
