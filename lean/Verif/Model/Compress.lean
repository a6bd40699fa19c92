import Verif.Model.ExpansionSums

/-!
# Compressing an expansion

`/repo/src/utils/Predicates.cpp` lines 1089-1122: `compress`.

The array is written from its end while it is read from there, and then from its beginning while the written part is read. Every
component is read before its place is written, also when the result takes the place of the argument, so lists are enough.
-/
namespace Verif
namespace FP

/-- The first loop, from the last component to the first: `Q` and the components written, in the order in which they stand in the array.
(src/utils/Predicates.cpp:1099-1110) -/
def compressDown (p : Nat) : List ℚ → ℚ → List ℚ → ℚ × List ℚ
  | [], Q, g => (Q, g)
  | e :: es, Q, g =>
    let r := fastTwoSum p Q e
    if r.2 ≠ 0 then compressDown p es r.2 (r.1 :: g) else compressDown p es r.1 g

/-- The second loop, over the components written by the first, and the last assignment. (src/utils/Predicates.cpp:1111-1121) -/
def compressUp (p : Nat) : List ℚ → ℚ → List ℚ
  | [], Q => [Q]
  | h :: hs, Q =>
    let r := fastTwoSum p h Q
    if r.2 ≠ 0 then r.2 :: compressUp p hs r.1 else compressUp p hs r.1

/-- `compress`. Undefined for an empty expansion, whose component `-1` is read. (src/utils/Predicates.cpp:1089-1122) -/
def compress (p : Nat) (e : List ℚ) : Res (List ℚ) :=
  match e.reverse with
  | [] => .ub
  | Q :: es =>
    let d := compressDown p es Q []
    .done (compressUp p d.2 d.1)

end FP
end Verif
