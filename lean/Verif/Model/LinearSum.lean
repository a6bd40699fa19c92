import Verif.Model.ExpansionSums

/-!
# The sum of two expansions in linear time

`/repo/src/utils/Predicates.cpp` lines 860-976: `linear_expansion_sum` and `linear_expansion_sum_zeroelim`.

Simplification: as `fast_expansion_sum_zeroelim`, the code reads one component past the end of both arguments and does not use it.
-/
namespace Verif
namespace FP

/-- The next component and what is left of both arguments. (src/utils/Predicates.cpp:872-889, 892-899, 934-952, 955-962) -/
def linNext : List ℚ → List ℚ → Res (ℚ × List ℚ × List ℚ)
  | [], [] => .ub
  | e :: es, [] => .done (e, es, [])
  | [], f :: fs => .done (f, [], fs)
  | e :: es, f :: fs => if pickE e f then .done (e, es, f :: fs) else .done (f, e :: es, fs)

/-- Write a component; with `z` only if it is not zero. (src/utils/Predicates.cpp:894, 897, 965-967) -/
def put (z : Bool) (hh : ℚ) (h : List ℚ) : List ℚ := if z && decide (hh = 0) then h else hh :: h

/-- The loop: the components written, the last `q` and the last `Q`. (src/utils/Predicates.cpp:891-902, 954-968) -/
def linLoop (p : Nat) (z : Bool) : Nat → List ℚ → List ℚ → ℚ → ℚ → Res (List ℚ × ℚ × ℚ)
  | 0, _, _, Q, q => .done ([], q, Q)
  | n + 1, es, fs, Q, q =>
    (linNext es fs).bind fun g =>
    let r := fastTwoSum p g.1 q
    let t := twoSum p Q r.1
    (linLoop p z n g.2.1 g.2.2 t.1 t.2).bind fun u => .done (put z r.2 u.1, u.2)

/-- Everything before the last components. (src/utils/Predicates.cpp:872-902, 934-968) -/
def linAll (p : Nat) (z : Bool) (e f : List ℚ) : Res (List ℚ × ℚ × ℚ) :=
  if e = [] ∨ f = [] then .ub
  else
    (linNext e f).bind fun g0 =>
    (linNext g0.2.1 g0.2.2).bind fun g1 =>
    let r := fastTwoSum p g1.1 g0.1
    linLoop p z (e.length + f.length - 2) g1.2.1 g1.2.2 r.1 r.2

/-- `linear_expansion_sum`. (src/utils/Predicates.cpp:860-906) -/
def linearSum (p : Nat) (e f : List ℚ) : Res (List ℚ) := (linAll p false e f).bind fun u => .done (u.1 ++ [u.2.1, u.2.2])

/-- `linear_expansion_sum_zeroelim`. (src/utils/Predicates.cpp:920-976) -/
def linearSumZ (p : Nat) (e f : List ℚ) : Res (List ℚ) :=
  (linAll p true e f).bind fun u => .done (finish (u.1 ++ (if u.2.1 ≠ 0 then [u.2.1] else []), u.2.2))

end FP
end Verif
