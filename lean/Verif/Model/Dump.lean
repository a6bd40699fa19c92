import Mathlib.Data.Rat.Floor
import Verif.Model.Load
import Verif.Model.Report

/-!
# The point dump program (src/exe/LB_PointDump.cpp) and reading its output with `loadFromFile`

Coordinates are rational numbers, which include all values of type `double`; the sign of a negative zero is left out.
`decimal` is the part of `std::stod` that is needed for the output of the program: no white space, exponents,
hexadecimal numbers, infinities and NaNs. It yields the exact value, which `std::stod` rounds to a `double` afterwards.
-/
namespace Verif
namespace Dump
open Report

/-- Rounding of a number that is not negative to the nearest integer, ties to even. (src/exe/LB_PointDump.cpp:43) -/
def nearest (y : ℚ) : Nat :=
  if y - ⌊y⌋₊ < 1 / 2 then ⌊y⌋₊ else if 1 / 2 < y - ⌊y⌋₊ then ⌊y⌋₊ + 1 else if ⌊y⌋₊ % 2 = 0 then ⌊y⌋₊ else ⌊y⌋₊ + 1

/-- Absolute value in millionths as printed by `%f`. (src/exe/LB_PointDump.cpp:43) -/
def micro (x : ℚ) : Nat := nearest (|x| * 10 ^ 6)

/-- The digits behind the point. (src/exe/LB_PointDump.cpp:43) -/
def six (m : Nat) : List Char :=
  [digit (m / 100000), digit (m / 10000), digit (m / 1000), digit (m / 100), digit (m / 10), digit m]

/-- `%f`. (src/exe/LB_PointDump.cpp:43) -/
def fixed (x : ℚ) : List Char :=
  (if x < 0 then ['-'] else []) ++ nat (micro x / 1000000) ++ '.' :: six (micro x)

/-- The output line for a point. (src/exe/LB_PointDump.cpp:43) -/
def line (p : Vec 3 ℚ) : List Char := fixed (p 0) ++ ' ' :: (fixed (p 1) ++ ' ' :: fixed (p 2))

/-- The loop over the points: `begin()` and `end()` of `VectorAdapter2` are those of the vector, with the entry 0.
(src/exe/LB_PointDump.cpp:42-44, include/datastructures/VectorAdapter2.hxx:93-111) -/
def dump (pts : List (Vec 3 ℚ)) : List (List Char) := pts.map line

/-- Is the character a digit? (include/Geometry.h:285) -/
def isDigit (c : Char) : Bool := decide (48 ≤ c.toNat) && decide (c.toNat ≤ 57)

/-- Value of a text of digits. (include/Geometry.h:285) -/
def value (s : List Char) : Nat := s.foldl (fun v c => 10 * v + (c.toNat - 48)) 0

/-- Number without sign: digits and perhaps a point with digits; what follows is ignored. (include/Geometry.h:285) -/
def unsigned (s : List Char) : Option ℚ :=
  let a := s.takeWhile isDigit
  if a = [] then none
  else match s.dropWhile isDigit with
    | '.' :: f => let b := f.takeWhile isDigit; some ((value (a ++ b) : ℚ) / 10 ^ b.length)
    | _ => some (value a)

/-- `std::stod` before rounding. (include/Geometry.h:285) -/
def decimal : List Char → Option ℚ
  | '-' :: s => (unsigned s).map fun x => -x
  | s => unsigned s

/-- `std::stod`, with rounding `rd` to `double`. (include/Geometry.h:285) -/
def stod (rd : ℚ → ℚ) (s : List Char) : Option ℚ := (decimal s).map rd

/-- `points.loadFromFile(file)` for new points, which have the entry 0 only.
(src/exe/LB_Experiments.cpp:22-24, include/Geometry.h:241-250) -/
def load (rd : ℚ → ℚ) (top tiny : ℚ) (u : Vec 3 ℚ) (file : List (List Char)) :
    Res (Option (List (Vec 3 ℚ) × Box 3 ℚ)) :=
  Load.loadFromFile (stod rd) top tiny ' ' u [fun _ => 0] file

end Dump
end Verif
