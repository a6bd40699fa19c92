import Mathlib.Data.Int.Log
import Mathlib.Data.Rat.Floor
import Verif.Model.Res

/-!
# Floating point arithmetic of the predicates

`/repo/src/utils/Predicates.cpp` lines 139-368: the macros of error-free arithmetic, and the initialisation of the constants
(411-467).

Floating point numbers are rational numbers. Every arithmetic operation is the exact one followed by rounding to `p` binary digits, to
nearest, ties to even. Exponents are unbounded: there is neither overflow nor underflow. `p` is 24 for `float` and 53 for
`double`. The compiler must not use higher precision or fuse operations.
-/
namespace Verif
namespace FP

/-- Nearest integer, ties to even. -/
def rne (q : ℚ) : Int :=
  if q - ⌊q⌋ < 1 / 2 then ⌊q⌋ else if 1 / 2 < q - ⌊q⌋ then ⌊q⌋ + 1 else if Even ⌊q⌋ then ⌊q⌋ else ⌊q⌋ + 1

/-- Exponent of the last digit when `x` is written with `p` digits. -/
def grid (p : Nat) (x : ℚ) : Int := Int.log 2 |x| + 1 - p

/-- Rounding to `p` digits. -/
def rnd (p : Nat) (x : ℚ) : ℚ := rne (x / 2 ^ grid p x) * 2 ^ grid p x

/-! ### Macros -/

/-- `Fast_Two_Sum`: `(x, y)`. (src/utils/Predicates.cpp:166-172) -/
def fastTwoSum (p : Nat) (a b : ℚ) : ℚ × ℚ :=
  let x := rnd p (a + b)
  let bvirt := rnd p (x - a)
  (x, rnd p (b - bvirt))

/-- `Two_Sum_Tail`. (src/utils/Predicates.cpp:182-187) -/
def twoSumTail (p : Nat) (a b x : ℚ) : ℚ :=
  let bvirt := rnd p (x - a)
  let avirt := rnd p (x - bvirt)
  let bround := rnd p (b - bvirt)
  let around := rnd p (a - avirt)
  rnd p (around + bround)

/-- `Two_Sum`: `(x, y)`. (src/utils/Predicates.cpp:189-191) -/
def twoSum (p : Nat) (a b : ℚ) : ℚ × ℚ := (rnd p (a + b), twoSumTail p a b (rnd p (a + b)))

/-- `Two_Diff_Tail`. (src/utils/Predicates.cpp:193-198) -/
def twoDiffTail (p : Nat) (a b x : ℚ) : ℚ :=
  let bvirt := rnd p (a - x)
  let avirt := rnd p (x + bvirt)
  let bround := rnd p (bvirt - b)
  let around := rnd p (a - avirt)
  rnd p (around + bround)

/-- `Two_Diff`: `(x, y)`. (src/utils/Predicates.cpp:200-202) -/
def twoDiff (p : Nat) (a b : ℚ) : ℚ × ℚ := (rnd p (a - b), twoDiffTail p a b (rnd p (a - b)))

/-- `Split`: `(ahi, alo)`. (src/utils/Predicates.cpp:204-208) -/
def split (p : Nat) (splitter a : ℚ) : ℚ × ℚ :=
  let c := rnd p (splitter * a)
  let abig := rnd p (c - a)
  let ahi := rnd p (c - abig)
  (ahi, rnd p (a - ahi))

/-- The last lines of `Two_Product_Tail`, `Two_Product_Presplit` and `Two_Product_2Presplit`. (src/utils/Predicates.cpp:213-216,
228-231, 238-241) -/
def productTail (p : Nat) (x ahi alo bhi blo : ℚ) : ℚ :=
  let err1 := rnd p (x - rnd p (ahi * bhi))
  let err2 := rnd p (err1 - rnd p (alo * bhi))
  let err3 := rnd p (err2 - rnd p (ahi * blo))
  rnd p (rnd p (alo * blo) - err3)

/-- `Two_Product`: `(x, y)`; also `Two_Product_Presplit` and `Two_Product_2Presplit`, which get the results of `Split` from the
caller. (src/utils/Predicates.cpp:210-241) -/
def twoProduct (p : Nat) (splitter a b : ℚ) : ℚ × ℚ :=
  let sa := split p splitter a
  let sb := split p splitter b
  (rnd p (a * b), productTail p (rnd p (a * b)) sa.1 sa.2 sb.1 sb.2)

/-- `Square`: `(x, y)`. (src/utils/Predicates.cpp:245-253) -/
def square (p : Nat) (splitter a : ℚ) : ℚ × ℚ :=
  let sa := split p splitter a
  let x := rnd p (a * a)
  let err1 := rnd p (x - rnd p (sa.1 * sa.1))
  let err3 := rnd p (err1 - rnd p (rnd p (sa.1 + sa.1) * sa.2))
  (x, rnd p (rnd p (sa.2 * sa.2) - err3))

/-! ### Initialisation of the constants -/

/-- Variables of the loop in the constructor. (src/utils/Predicates.cpp:415-434) -/
structure InitSt where
  epsilon : ℚ
  splitter : ℚ
  everyOther : Bool
  check : ℚ

/-- One round of the loop and its condition. (src/utils/Predicates.cpp:439-447) -/
def initRound (p : Nat) (s : InitSt) : InitSt × Bool :=
  let lastcheck := s.check
  let epsilon := rnd p (s.epsilon * (1 / 2))
  let splitter := if s.everyOther then rnd p (s.splitter * 2) else s.splitter
  let check := rnd p (1 + epsilon)
  ({ epsilon := epsilon, splitter := splitter, everyOther := !s.everyOther, check := check }, decide (check ≠ 1 ∧ check ≠ lastcheck))

/-- The loop in the constructor. (src/utils/Predicates.cpp:439-448) -/
def initLoop (p : Nat) : Nat → InitSt → Res InitSt
  | 0, _ => .timeout
  | fuel + 1, s => let r := initRound p s; if r.2 then initLoop p fuel r.1 else .done r.1

/-- An error bound `(a + b * epsilon) * epsilon`. (src/utils/Predicates.cpp:451-463) -/
def bound1 (p : Nat) (eps : ℚ) (a b : Nat) : ℚ := rnd p (rnd p (a + rnd p (b * eps)) * eps)

/-- An error bound `(a + b * epsilon) * epsilon * epsilon`. (src/utils/Predicates.cpp:451-463) -/
def bound2 (p : Nat) (eps : ℚ) (a b : Nat) : ℚ := rnd p (rnd p (rnd p (a + rnd p (b * eps)) * eps) * eps)

/-- The static members of `PredicatesBase`. (src/utils/Predicates.cpp:378-393) -/
structure Consts where
  epsilon : ℚ
  splitter : ℚ
  resulterrbound : ℚ
  ccwerrboundA : ℚ
  ccwerrboundB : ℚ
  ccwerrboundC : ℚ
  o3derrboundA : ℚ
  o3derrboundB : ℚ
  o3derrboundC : ℚ
  iccerrboundA : ℚ
  iccerrboundB : ℚ
  iccerrboundC : ℚ
  isperrboundA : ℚ
  isperrboundB : ℚ
  isperrboundC : ℚ

/-- The constructor. Simplification: the literals are of type `double`, so that for `float` every expression is evaluated with 53 digits
and rounded to 24 digits when it is assigned; here every operation rounds to `p` digits. (src/utils/Predicates.cpp:430-463) -/
def init (p fuel : Nat) : Res Consts :=
  (initLoop p fuel ⟨1, 1, true, 1⟩).bind fun s => .done
    { epsilon := s.epsilon
      splitter := rnd p (s.splitter + 1)
      resulterrbound := bound1 p s.epsilon 3 8
      ccwerrboundA := bound1 p s.epsilon 3 16
      ccwerrboundB := bound1 p s.epsilon 2 12
      ccwerrboundC := bound2 p s.epsilon 9 64
      o3derrboundA := bound1 p s.epsilon 7 56
      o3derrboundB := bound1 p s.epsilon 3 28
      o3derrboundC := bound2 p s.epsilon 26 288
      iccerrboundA := bound1 p s.epsilon 10 96
      iccerrboundB := bound1 p s.epsilon 4 48
      iccerrboundC := bound2 p s.epsilon 44 576
      isperrboundA := bound1 p s.epsilon 16 224
      isperrboundB := bound1 p s.epsilon 5 72
      isperrboundC := bound2 p s.epsilon 71 1408 }

end FP
end Verif
