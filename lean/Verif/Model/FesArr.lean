import Verif.Model.Orient2

/-!
# Array accesses of the sum of expansions

`/repo/src/utils/Predicates.cpp` lines 779-848: `fast_expansion_sum_zeroelim` on arrays. The lists are the arrays with everything in
them, also beyond the `elen` and `flen` components of the expansions. Reading beyond the end of an array is `Res.ub`.
-/
namespace Verif
namespace FP

/-- The loops. `n`, `m`: components left, `es`, `fs`: the arrays after the current components.
(src/utils/Predicates.cpp:814-842) -/
def fesLoopA (p : Nat) : Nat → Nat → ℚ → ℚ → List ℚ → List ℚ → ℚ → Res (List ℚ × ℚ)
  | 0, 0, _, _, _, _, Q => .done ([], Q)
  | n + 1, 0, enow, fnow, es, fs, Q =>
    let r := twoSum p Q enow
    match es with
    | x :: es => (fesLoopA p n 0 x fnow es fs r.1).bind fun t => .done (emit r.2 t.1, t.2)
    | [] => .ub
  | 0, m + 1, enow, fnow, es, fs, Q =>
    let r := twoSum p Q fnow
    match fs with
    | x :: fs => (fesLoopA p 0 m enow x es fs r.1).bind fun t => .done (emit r.2 t.1, t.2)
    | [] => .ub
  | n + 1, m + 1, enow, fnow, es, fs, Q =>
    if pickE enow fnow then
      let r := twoSum p Q enow
      match es with
      | x :: es => (fesLoopA p n (m + 1) x fnow es fs r.1).bind fun t => .done (emit r.2 t.1, t.2)
      | [] => .ub
    else
      let r := twoSum p Q fnow
      match fs with
      | x :: fs => (fesLoopA p (n + 1) m enow x es fs r.1).bind fun t => .done (emit r.2 t.1, t.2)
      | [] => .ub
termination_by n m => n + m

/-- The part after the first component. (src/utils/Predicates.cpp:800-842) -/
def fesRestA (p : Nat) (n m : Nat) (enow fnow : ℚ) (es fs : List ℚ) (Q : ℚ) : Res (List ℚ × ℚ) :=
  if 0 < n ∧ 0 < m then
    if pickE enow fnow then
      let r := fastTwoSum p enow Q
      match es with
      | x :: es => (fesLoopA p (n - 1) m x fnow es fs r.1).bind fun t => .done (emit r.2 t.1, t.2)
      | [] => .ub
    else
      let r := fastTwoSum p fnow Q
      match fs with
      | x :: fs => (fesLoopA p n (m - 1) enow x es fs r.1).bind fun t => .done (emit r.2 t.1, t.2)
      | [] => .ub
  else fesLoopA p n m enow fnow es fs Q

/-- `fast_expansion_sum_zeroelim`. (src/utils/Predicates.cpp:779-848) -/
def fesA (p : Nat) (elen : Nat) (e : List ℚ) (flen : Nat) (f : List ℚ) : Res (List ℚ) :=
  match e, f with
  | enow :: es, fnow :: fs =>
    if pickE enow fnow then
      match es with
      | x :: es => (fesRestA p (elen - 1) flen x fnow es fs enow).bind fun r => .done (finish r)
      | [] => .ub
    else
      match fs with
      | x :: fs => (fesRestA p elen (flen - 1) enow x es fs fnow).bind fun r => .done (finish r)
      | [] => .ub
  | _, _ => .ub

/-- `orient_adapt` of the plane. Of the three sums of the last stage the first, whose arguments are the arrays `B[4]` and `u[4]`, is
evaluated with arrays. (src/utils/Predicates.cpp:1268-1345) -/
def orientAdapt2A (p : Nat) (c : Consts) (pa pb pc : ℚ × ℚ) (detsum : ℚ) : Res ℚ :=
  let acx := rnd p (pa.1 - pc.1)
  let bcx := rnd p (pb.1 - pc.1)
  let acy := rnd p (pa.2 - pc.2)
  let bcy := rnd p (pb.2 - pc.2)
  let B := diff4 p c.splitter acx bcy acy bcx
  let det := estimate p B
  let errbound := rnd p (c.ccwerrboundB * detsum)
  if errbound ≤ det ∨ errbound ≤ -det then .done det
  else
    let acxtail := twoDiffTail p pa.1 pc.1 acx
    let bcxtail := twoDiffTail p pb.1 pc.1 bcx
    let acytail := twoDiffTail p pa.2 pc.2 acy
    let bcytail := twoDiffTail p pb.2 pc.2 bcy
    if acxtail = 0 ∧ acytail = 0 ∧ bcxtail = 0 ∧ bcytail = 0 then .done det
    else
      let errbound := rnd p (rnd p (c.ccwerrboundC * detsum) + rnd p (c.resulterrbound * |det|))
      let det := rnd p (det + rnd p (rnd p (rnd p (acx * bcytail) + rnd p (bcy * acxtail)) -
        rnd p (rnd p (acy * bcxtail) + rnd p (bcx * acytail))))
      if errbound ≤ det ∨ errbound ≤ -det then .done det
      else
        (fesA p 4 B 4 (diff4 p c.splitter acxtail bcy acytail bcx)).bind fun C1 =>
        let C2 := fes p C1 (diff4 p c.splitter acx bcytail acy bcxtail)
        let D := fes p C2 (diff4 p c.splitter acxtail bcytail acytail bcxtail)
        .done (top D)

/-- `orient` of the plane. (src/utils/Predicates.cpp:1347-1380) -/
def orient2A (p : Nat) (c : Consts) (pa pb pc : ℚ × ℚ) : Res ℚ :=
  let detleft := rnd p (rnd p (pa.1 - pc.1) * rnd p (pb.2 - pc.2))
  let detright := rnd p (rnd p (pa.2 - pc.2) * rnd p (pb.1 - pc.1))
  let det := rnd p (detleft - detright)
  let rest (detsum : ℚ) : Res ℚ :=
    let errbound := rnd p (c.ccwerrboundA * detsum)
    if errbound ≤ det ∨ errbound ≤ -det then .done det else orientAdapt2A p c pa pb pc detsum
  if 0 < detleft then
    if detright ≤ 0 then .done det else rest (rnd p (detleft + detright))
  else if detleft < 0 then
    if 0 ≤ detright then .done det else rest (rnd p (-detleft - detright))
  else .done det

end FP
end Verif
