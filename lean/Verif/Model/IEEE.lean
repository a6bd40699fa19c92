import Verif.Model.Machine

/-!
# Floating point numbers with bounded exponents

The types `double` and `float` as the predicates of `/repo/src/utils/Predicates.cpp` use them. Infinities are represented by the result
of an arbitrary function, because the statements about them say that they do not occur. Signed zeros and NaN are not distinguished.
-/
namespace Verif
namespace FPM
open FP (rne grid Consts InitSt)

/-- Rounding to nearest, ties to even, with `p` digits, to a multiple of `2 ^ lo` (gradual underflow). -/
def rndB (p : Nat) (lo : Int) (x : ℚ) : ℚ := rne (x / 2 ^ max (grid p x) lo) * 2 ^ max (grid p x) lo

/-- The same with overflow: if the absolute value would be `2 ^ hi` or more, then the result is `inf x`. -/
def ieee (p : Nat) (lo hi : Int) (inf : ℚ → ℚ) (x : ℚ) : ℚ := if 2 ^ hi ≤ |rndB p lo x| then inf x else rndB p lo x

/-- The arithmetic of `double`. -/
def double (inf : ℚ → ℚ) : ℚ → ℚ := ieee 53 (-1074) 1024 inf

/-- The arithmetic of `float`. -/
def single (inf : ℚ → ℚ) : ℚ → ℚ := ieee 24 (-149) 128 inf

/-! ### Constructor

Operations with literals are computed with type `double`, whose rounding is `w`; the assignment rounds with `rd`. -/

/-- One round of the loop and its condition. (src/utils/Predicates.cpp:439-447) -/
def initRound (rd w : ℚ → ℚ) (s : InitSt) : InitSt × Bool :=
  let lastcheck := s.check
  let epsilon := rd (s.epsilon * (1 / 2))
  let splitter := if s.everyOther then rd (w (s.splitter * 2)) else s.splitter
  let check := rd (w (1 + epsilon))
  ({ epsilon := epsilon, splitter := splitter, everyOther := !s.everyOther, check := check }, decide (check ≠ 1 ∧ check ≠ lastcheck))

/-- The loop in the constructor. (src/utils/Predicates.cpp:439-448) -/
def initLoop (rd w : ℚ → ℚ) : Nat → InitSt → Res InitSt
  | 0, _ => .timeout
  | fuel + 1, s => let r := initRound rd w s; if r.2 then initLoop rd w fuel r.1 else .done r.1

/-- An error bound `(a + b * epsilon) * epsilon`. (src/utils/Predicates.cpp:451-463) -/
def bound1 (rd w : ℚ → ℚ) (eps : ℚ) (a b : Nat) : ℚ := rd (w (w (a + w (b * eps)) * eps))

/-- An error bound `(a + b * epsilon) * epsilon * epsilon`. (src/utils/Predicates.cpp:451-463) -/
def bound2 (rd w : ℚ → ℚ) (eps : ℚ) (a b : Nat) : ℚ := rd (w (w (w (a + w (b * eps)) * eps) * eps))

/-- The constructor. (src/utils/Predicates.cpp:430-463) -/
def init (rd w : ℚ → ℚ) (fuel : Nat) : Res Consts :=
  (initLoop rd w fuel ⟨1, 1, true, 1⟩).bind fun s => .done
    { epsilon := s.epsilon
      splitter := rd (w (s.splitter + 1))
      resulterrbound := bound1 rd w s.epsilon 3 8
      ccwerrboundA := bound1 rd w s.epsilon 3 16
      ccwerrboundB := bound1 rd w s.epsilon 2 12
      ccwerrboundC := bound2 rd w s.epsilon 9 64
      o3derrboundA := bound1 rd w s.epsilon 7 56
      o3derrboundB := bound1 rd w s.epsilon 3 28
      o3derrboundC := bound2 rd w s.epsilon 26 288
      iccerrboundA := bound1 rd w s.epsilon 10 96
      iccerrboundB := bound1 rd w s.epsilon 4 48
      iccerrboundC := bound2 rd w s.epsilon 44 576
      isperrboundA := bound1 rd w s.epsilon 16 224
      isperrboundB := bound1 rd w s.epsilon 5 72
      isperrboundC := bound2 rd w s.epsilon 71 1408 }

/-- `GeometryCore<2>::inSphere`. (src/lib/Geometry.cpp:148-187) -/
def inSphere2 (rd : ℚ → ℚ) (k : Consts) (pt s0 s1 s2 : ℚ × ℚ) : Res Bool := do
  let o ← orient2 rd k s0 s1 s2
  let d ← insphere2 rd k s0 s1 s2 pt
  return decide (0 ≤ rd (o * d))

/-- `GeometryCore<3>::inSphere`. (src/lib/Geometry.cpp:351-410) -/
def inSphere3 (rd : ℚ → ℚ) (k : Consts) (pt s0 s1 s2 s3 : ℚ × ℚ × ℚ) : Res Bool := do
  let o ← orient3 rd k s0 s1 s2 s3
  let d ← insphere3 rd k s0 s1 s2 s3 pt
  return decide (0 ≤ rd (o * d))

end FPM
end Verif
