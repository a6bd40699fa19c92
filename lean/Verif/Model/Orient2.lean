import Verif.Model.Expansion

/-!
# Adaptive orientation test in the plane

`/repo/src/utils/Predicates.cpp` lines 1268-1380.
-/
namespace Verif
namespace FP

/-- `[u[0], .., u[3]]` with the value `a * b - c * d`. (src/utils/Predicates.cpp:1299-1304, 1327-1330) -/
def diff4 (p : Nat) (splitter a b c d : ℚ) : List ℚ :=
  let s := twoProduct p splitter a b
  let t := twoProduct p splitter c d
  twoTwoDiff p s.1 s.2 t.1 t.2

/-- `orient_adapt` of the plane. (src/utils/Predicates.cpp:1268-1345) -/
def orientAdapt2 (p : Nat) (c : Consts) (pa pb pc : ℚ × ℚ) (detsum : ℚ) : ℚ :=
  let acx := rnd p (pa.1 - pc.1)
  let bcx := rnd p (pb.1 - pc.1)
  let acy := rnd p (pa.2 - pc.2)
  let bcy := rnd p (pb.2 - pc.2)
  let B := diff4 p c.splitter acx bcy acy bcx
  let det := estimate p B
  let errbound := rnd p (c.ccwerrboundB * detsum)
  if errbound ≤ det ∨ errbound ≤ -det then det
  else
    let acxtail := twoDiffTail p pa.1 pc.1 acx
    let bcxtail := twoDiffTail p pb.1 pc.1 bcx
    let acytail := twoDiffTail p pa.2 pc.2 acy
    let bcytail := twoDiffTail p pb.2 pc.2 bcy
    if acxtail = 0 ∧ acytail = 0 ∧ bcxtail = 0 ∧ bcytail = 0 then det
    else
      let errbound := rnd p (rnd p (c.ccwerrboundC * detsum) + rnd p (c.resulterrbound * |det|))
      let det := rnd p (det + rnd p (rnd p (rnd p (acx * bcytail) + rnd p (bcy * acxtail)) -
        rnd p (rnd p (acy * bcxtail) + rnd p (bcx * acytail))))
      if errbound ≤ det ∨ errbound ≤ -det then det
      else
        let C1 := fes p B (diff4 p c.splitter acxtail bcy acytail bcx)
        let C2 := fes p C1 (diff4 p c.splitter acx bcytail acy bcxtail)
        let D := fes p C2 (diff4 p c.splitter acxtail bcytail acytail bcxtail)
        top D

/-- `orient` of the plane. (src/utils/Predicates.cpp:1347-1380) -/
def orient2 (p : Nat) (c : Consts) (pa pb pc : ℚ × ℚ) : ℚ :=
  let detleft := rnd p (rnd p (pa.1 - pc.1) * rnd p (pb.2 - pc.2))
  let detright := rnd p (rnd p (pa.2 - pc.2) * rnd p (pb.1 - pc.1))
  let det := rnd p (detleft - detright)
  let rest (detsum : ℚ) : ℚ :=
    let errbound := rnd p (c.ccwerrboundA * detsum)
    if errbound ≤ det ∨ errbound ≤ -det then det else orientAdapt2 p c pa pb pc detsum
  if 0 < detleft then
    if detright ≤ 0 then det else rest (rnd p (detleft + detright))
  else if detleft < 0 then
    if 0 ≤ detright then det else rest (rnd p (-detleft - detright))
  else det

end FP
end Verif
