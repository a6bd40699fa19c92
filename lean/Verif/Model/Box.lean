import Mathlib.Algebra.Order.Field.Basic
import Mathlib.Data.Fin.VecNotation
import Mathlib.Data.List.FinRange
import Mathlib.Data.Rat.Defs

/-!
# Vectors, spheres and boxes (include/Geometry.h)

Exact arithmetic over a linear ordered field `K` takes the place of `Precision` (`double`).
-/
namespace Verif

/-- `dVector`, a fixed-size array of coordinates. (include/Geometry.h:56-57) -/
abbrev Vec (D : Nat) (K : Type*) := Fin D → K

/-- `dSphere`. (include/Geometry.h:62-66) -/
structure Sphere (D : Nat) (K : Type*) where
  center : Vec D K
  radius : K

/-- `dBox`. (include/Geometry.h:71-79) -/
structure Box (D : Nat) (K : Type*) where
  low : Vec D K
  high : Vec D K

namespace Box
variable {D : Nat} {K : Type*} [Field K] [LinearOrder K]

/-- `for (d) if (!cond(d)) return false; return true;` (include/Geometry.h:84-87, 95-98, 109-112, 116-119) -/
def allDims (D : Nat) (cond : Fin D → Bool) : Bool := (List.finRange D).all cond

/-- `dBox::contains(point)`. (include/Geometry.h:81-90) -/
def containsPoint (b : Box D K) (p : Vec D K) : Bool :=
  allDims D fun d => decide (b.low d ≤ p d ∧ p d ≤ b.high d)

/-- `dBox::contains(box)`. (include/Geometry.h:92-101) -/
def containsBox (b c : Box D K) : Bool :=
  allDims D fun d => decide (b.low d ≤ c.low d ∧ c.high d ≤ b.high d)

/-- The loop of lines 123-124: `dist += (a[i] - b[i]) * (a[i] - b[i])` over all dimensions,
starting from 0. -/
def sqDistLoop (a b : Vec D K) : K :=
  (List.finRange D).foldl (fun dist i => dist + (a i - b i) * (a i - b i)) 0

/-- `dBox::contains(sphere)`. (include/Geometry.h:104-132) -/
def containsSphere (b : Box D K) (s : Sphere D K) : Bool :=
  let r2 := s.radius * s.radius
  if allDims D fun d => decide (b.low d ≤ s.center d ∧ s.center d ≤ b.high d) then
    allDims D fun d =>
      let p := Function.update s.center d
        (if s.center d < (b.high d + b.low d) / 2 then b.low d else b.high d)
      !decide (sqDistLoop s.center p < r2)
  else false

/-- The loop of `dBox::intersects` (include/Geometry.h:140-148); `none`: returned false inside the
loop. -/
def intersectsLoop (b : Box D K) (s : Sphere D K) : List (Fin D) → K → Option K
  | [], dist => some dist
  | d :: ds, dist =>
      let e := max (b.low d - s.center d) 0 + max (s.center d - b.high d) 0
      if s.radius < e then none else intersectsLoop b s ds (dist + e * e)

/-- `dBox::intersects(sphere)`. (include/Geometry.h:135-154) -/
def intersects (b : Box D K) (s : Sphere D K) : Bool :=
  let r2 := s.radius * s.radius
  match intersectsLoop b s (List.finRange D) 0 with
  | none => false
  | some dist => decide (dist ≤ r2)

/-- The body of the loop of `operator-`, for one dimension. (include/Geometry.h:164-181) -/
def subStep (a o : Box D K) (r : Box D K) (d : Fin D) : Box D K :=
  let r := if a.low d ≠ o.low d then { r with high := Function.update r.high d (o.low d) } else r
  if a.high d ≠ o.high d then { r with low := Function.update r.low d (o.high d) } else r

/-- `dBox::operator-`; the assertion on the number of differing sides is compiled out in release
builds. (include/Geometry.h:156-183) -/
def sub (a o : Box D K) : Box D K := (List.finRange D).foldl (subStep a o) a

/-- `dBox::operator==`. (include/Geometry.h:185-187) -/
def beq (a o : Box D K) : Bool :=
  allDims D (fun d => decide (a.low d = o.low d)) && allDims D (fun d => decide (a.high d = o.high d))

end Box
end Verif
