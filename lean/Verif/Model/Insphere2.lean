import Verif.Model.Orient2

/-!
# Adaptive incircle test in the plane

`/repo/src/utils/Predicates.cpp` lines 1679-2338. The code repeats the same statements for the points `a`, `b`, `c`, rotated; here they
are functions of the three points, called for `(a, b, c)`, `(b, c, a)` and `(c, a, b)`.
-/
namespace Verif
namespace FP

/-- `Two_One_Sum`: `(x2, x1, x0)`. (src/utils/Predicates.cpp:257-259) -/
def twoOneSum (p : Nat) (a1 a0 b : ℚ) : ℚ × ℚ × ℚ :=
  let r := twoSum p a0 b
  let t := twoSum p a1 r.1
  (t.1, t.2, r.2)

/-- `Two_Two_Sum`: `[x0, x1, x2, x3]`. (src/utils/Predicates.cpp:265-267) -/
def twoTwoSum (p : Nat) (a1 a0 b1 b0 : ℚ) : List ℚ :=
  let r := twoOneSum p a1 a0 b0
  let t := twoOneSum p r.1 r.2.1 b1
  [r.2.2, t.2.2, t.2.1, t.1]

/-- Four components with the value `a * b + c * d`. (src/utils/Predicates.cpp:1968-1977) -/
def sum4 (p : Nat) (splitter a b c d : ℚ) : List ℚ :=
  let s := twoProduct p splitter a b
  let t := twoProduct p splitter c d
  twoTwoSum p s.1 s.2 t.1 t.2

/-- Four components with the value `a * a + b * b`. (src/utils/Predicates.cpp:1818-1821) -/
def squares4 (p : Nat) (splitter a b : ℚ) : List ℚ :=
  let s := square p splitter a
  let t := square p splitter b
  twoTwoSum p s.1 s.2 t.1 t.2

/-- Coordinates of a point relative to `pd`, rounded, and the rounding errors. (src/utils/Predicates.cpp:1742-1747, 1789-1794) -/
structure Side where
  x : ℚ
  y : ℚ
  xt : ℚ
  yt : ℚ

/-- One of the tails is not zero. (src/utils/Predicates.cpp:1314) -/
def Side.inexact (a : Side) : Bool := decide (a.xt ≠ 0 ∨ a.yt ≠ 0)

/-- The coordinates of `pa` relative to `pd`. The code computes the tails only when it needs them.
(src/utils/Predicates.cpp:1742-1747, 1789-1794) -/
def side (p : Nat) (pa pd : ℚ × ℚ) : Side :=
  let x := rnd p (pa.1 - pd.1)
  let y := rnd p (pa.2 - pd.2)
  ⟨x, y, twoDiffTail p pa.1 pd.1 x, twoDiffTail p pa.2 pd.2 y⟩

/-- `bc` for `b` and `c`, and similarly `ca`, `ab`. (src/utils/Predicates.cpp:1749-1752, 1759-1762, 1769-1772) -/
def cross4 (p : Nat) (splitter : ℚ) (b c : Side) : List ℚ := diff4 p splitter b.x c.y c.x b.y

/-- `adet`, `bdet`, `cdet`. (src/utils/Predicates.cpp:1753-1757, 1763-1767, 1773-1777) -/
def liftDet (p : Nat) (splitter : ℚ) (a : Side) (bc : List ℚ) : List ℚ :=
  fes p (scale p splitter (scale p splitter bc a.x) a.x) (scale p splitter (scale p splitter bc a.y) a.y)

/-- The terms of first order that belong to one point. (src/utils/Predicates.cpp:1801-1803, 1804-1806, 1807-1809) -/
def corr2 (p : Nat) (a b c : Side) : ℚ :=
  rnd p (rnd p (rnd p (rnd p (a.x * a.x) + rnd p (a.y * a.y)) *
      rnd p (rnd p (rnd p (b.x * c.yt) + rnd p (c.y * b.xt)) - rnd p (rnd p (b.y * c.xt) + rnd p (c.x * b.yt)))) +
    rnd p (rnd p (2 * rnd p (rnd p (a.x * a.xt) + rnd p (a.y * a.yt))) * rnd p (rnd p (b.x * c.y) - rnd p (b.y * c.x))))

/-- `aa`, `bb`, `cc`: computed only if a tail of another point is not zero, otherwise the array is not initialised, here empty.
(src/utils/Predicates.cpp:1816-1836) -/
def lift4 (p : Nat) (splitter : ℚ) (a b c : Side) : List ℚ :=
  if b.inexact || c.inexact then squares4 p splitter a.x a.y else []

/-- The term for `adxtail`, `bdxtail`, `cdxtail`. (src/utils/Predicates.cpp:1838-1857, 1880-1899, 1922-1941) -/
def firstX (p : Nat) (splitter : ℚ) (a b c : Side) (bc bb cc fin : List ℚ) : List ℚ :=
  if a.xt ≠ 0 then
    let t16a := scale p splitter (scale p splitter bc a.xt) (rnd p (2 * a.x))
    let t16b := scale p splitter (scale p splitter cc a.xt) b.y
    let t16c := scale p splitter (scale p splitter bb a.xt) (-c.y)
    fes p fin (fes p t16c (fes p t16a t16b))
  else fin

/-- The term for `adytail`, `bdytail`, `cdytail`. (src/utils/Predicates.cpp:1859-1878, 1901-1920, 1943-1962) -/
def firstY (p : Nat) (splitter : ℚ) (a b c : Side) (bc bb cc fin : List ℚ) : List ℚ :=
  if a.yt ≠ 0 then
    let t16a := scale p splitter (scale p splitter bc a.yt) (rnd p (2 * a.y))
    let t16b := scale p splitter (scale p splitter bb a.yt) c.x
    let t16c := scale p splitter (scale p splitter cc a.yt) (-b.x)
    fes p fin (fes p t16c (fes p t16a t16b))
  else fin

/-- `bct`, `cat`, `abt`. (src/utils/Predicates.cpp:1966-1989, 2075-2098, 2184-2207) -/
def crossT (p : Nat) (splitter : ℚ) (b c : Side) : List ℚ :=
  if b.inexact || c.inexact then
    fes p (sum4 p splitter b.xt c.y b.x c.yt) (sum4 p splitter c.xt (-b.y) c.x (-b.yt))
  else [0]

/-- `bctt`, `catt`, `abtt`. (src/utils/Predicates.cpp:1979-1988, 2088-2097, 2197-2206) -/
def crossTT (p : Nat) (splitter : ℚ) (b c : Side) : List ℚ :=
  if b.inexact || c.inexact then diff4 p splitter b.xt c.yt c.xt b.yt else [0]

/-- A product of two tails and the square of a third point. (src/utils/Predicates.cpp:2003-2022) -/
def secondXY (p : Nat) (splitter s t : ℚ) (cc fin : List ℚ) : List ℚ :=
  if t ≠ 0 then fes p fin (scale p splitter (scale p splitter cc s) t) else fin

/-- The terms of second order with one coordinate `x` of a point and its tail `t`: before the products with the other points.
(src/utils/Predicates.cpp:1992-2002, 2039-2048) -/
def secondPre (p : Nat) (splitter x t : ℚ) (bc bct fin : List ℚ) : List ℚ :=
  fes p fin (fes p (scale p splitter (scale p splitter bc t) t) (scale p splitter (scale p splitter bct t) (rnd p (2 * x))))

/-- The same, after the products. (src/utils/Predicates.cpp:2024-2037, 2051-2064) -/
def secondPost (p : Nat) (splitter x t : ℚ) (bct bctt fin : List ℚ) : List ℚ :=
  let t32a := scale p splitter (scale p splitter bct t) t
  let t32b := fes p (scale p splitter (scale p splitter bctt t) (rnd p (2 * x))) (scale p splitter (scale p splitter bctt t) t)
  fes p fin (fes p t32a t32b)

/-- The terms of second order for one point. (src/utils/Predicates.cpp:1964-2072, 2073-2181, 2182-2290) -/
def second (p : Nat) (splitter : ℚ) (a b c : Side) (bc bb cc fin : List ℚ) : List ℚ :=
  if a.inexact then
    let bct := crossT p splitter b c
    let bctt := crossTT p splitter b c
    let fin :=
      if a.xt ≠ 0 then
        let fin := secondPre p splitter a.x a.xt bc bct fin
        let fin := secondXY p splitter a.xt b.yt cc fin
        let fin := secondXY p splitter (-a.xt) c.yt bb fin
        secondPost p splitter a.x a.xt bct bctt fin
      else fin
    if a.yt ≠ 0 then
      let fin := secondPre p splitter a.y a.yt bc bct fin
      secondPost p splitter a.y a.yt bct bctt fin
    else fin
  else fin

/-- The last stage. (src/utils/Predicates.cpp:1814-2292) -/
def insphereLast2 (p : Nat) (splitter : ℚ) (a b c : Side) (bc ca ab fin : List ℚ) : List ℚ :=
  let aa := lift4 p splitter a b c
  let bb := lift4 p splitter b c a
  let cc := lift4 p splitter c a b
  let fin := firstX p splitter a b c bc bb cc fin
  let fin := firstY p splitter a b c bc bb cc fin
  let fin := firstX p splitter b c a ca cc aa fin
  let fin := firstY p splitter b c a ca cc aa fin
  let fin := firstX p splitter c a b ab aa bb fin
  let fin := firstY p splitter c a b ab aa bb fin
  let fin := second p splitter a b c bc bb cc fin
  let fin := second p splitter b c a ca cc aa fin
  second p splitter c a b ab aa bb fin

/-- `insphere_adapt` of the plane. (src/utils/Predicates.cpp:1679-2294) -/
def insphereAdapt2 (p : Nat) (k : Consts) (pa pb pc pd : ℚ × ℚ) (permanent : ℚ) : ℚ :=
  let a := side p pa pd
  let b := side p pb pd
  let c := side p pc pd
  let bc := cross4 p k.splitter b c
  let ca := cross4 p k.splitter c a
  let ab := cross4 p k.splitter a b
  let fin1 := fes p (fes p (liftDet p k.splitter a bc) (liftDet p k.splitter b ca)) (liftDet p k.splitter c ab)
  let det := estimate p fin1
  let errbound := rnd p (k.iccerrboundA * permanent)
  if errbound ≤ det ∨ errbound ≤ -det then det
  else if a.xt = 0 ∧ b.xt = 0 ∧ c.xt = 0 ∧ a.yt = 0 ∧ b.yt = 0 ∧ c.yt = 0 then det
  else
    let errbound := rnd p (rnd p (k.iccerrboundC * permanent) + rnd p (k.resulterrbound * |det|))
    let det := rnd p (det + rnd p (rnd p (corr2 p a b c + corr2 p b c a) + corr2 p c a b))
    if errbound ≤ det ∨ errbound ≤ -det then det
    else top (insphereLast2 p k.splitter a b c bc ca ab fin1)

/-- `insphere` of the plane. (src/utils/Predicates.cpp:2296-2338) -/
def insphere2 (p : Nat) (k : Consts) (pa pb pc pd : ℚ × ℚ) : ℚ :=
  let adx := rnd p (pa.1 - pd.1)
  let bdx := rnd p (pb.1 - pd.1)
  let cdx := rnd p (pc.1 - pd.1)
  let ady := rnd p (pa.2 - pd.2)
  let bdy := rnd p (pb.2 - pd.2)
  let cdy := rnd p (pc.2 - pd.2)
  let bdxcdy := rnd p (bdx * cdy)
  let cdxbdy := rnd p (cdx * bdy)
  let alift := rnd p (rnd p (adx * adx) + rnd p (ady * ady))
  let cdxady := rnd p (cdx * ady)
  let adxcdy := rnd p (adx * cdy)
  let blift := rnd p (rnd p (bdx * bdx) + rnd p (bdy * bdy))
  let adxbdy := rnd p (adx * bdy)
  let bdxady := rnd p (bdx * ady)
  let clift := rnd p (rnd p (cdx * cdx) + rnd p (cdy * cdy))
  let det := rnd p (rnd p (rnd p (alift * rnd p (bdxcdy - cdxbdy)) + rnd p (blift * rnd p (cdxady - adxcdy))) +
    rnd p (clift * rnd p (adxbdy - bdxady)))
  let permanent := rnd p (rnd p (rnd p (rnd p (|bdxcdy| + |cdxbdy|) * alift) + rnd p (rnd p (|cdxady| + |adxcdy|) * blift)) +
    rnd p (rnd p (|adxbdy| + |bdxady|) * clift))
  let errbound := rnd p (k.iccerrboundA * permanent)
  if errbound < det ∨ errbound < -det then det else insphereAdapt2 p k pa pb pc pd permanent

/-- `GeometryCore<2>::inSphere` with the tests as they are computed. (src/lib/Geometry.cpp:148-187) -/
def inSphereFl2 (p : Nat) (k : Consts) (pt s0 s1 s2 : ℚ × ℚ) : Bool :=
  decide (rnd p (orient2 p k s0 s1 s2 * insphere2 p k s0 s1 s2 pt) ≥ 0)

end FP
end Verif
