import Verif.Model.Insphere2

/-!
# Adaptive orientation test in space

`/repo/src/utils/Predicates.cpp` lines 2563-3058. The code repeats the same statements for the points `a`, `b`, `c`, rotated; here they
are functions of the three points.
-/
namespace Verif
namespace FP

/-- `Two_One_Product`: `[x0, x1, x2, x3]`. (src/utils/Predicates.cpp:308-313) -/
def twoOneProduct (p : Nat) (splitter a1 a0 b : ℚ) : List ℚ :=
  let i := twoProduct p splitter a0 b
  let j := twoProduct p splitter a1 b
  let k := twoSum p i.1 j.2
  let t := fastTwoSum p j.1 k.1
  [i.2, k.2, t.2, t.1]

/-- Coordinates of a point relative to `pd`, rounded, and the rounding errors. (src/utils/Predicates.cpp:2617-2625, 2654-2662) -/
structure Side3 extends Side where
  z : ℚ
  zt : ℚ

/-- The coordinates of `pa` relative to `pd`. The code computes the tails only when it needs them.
(src/utils/Predicates.cpp:2617-2625, 2654-2662) -/
def side3 (p : Nat) (pa pd : ℚ × ℚ × ℚ) : Side3 :=
  let z := rnd p (pa.2.2 - pd.2.2)
  ⟨side p (pa.1, pa.2.1) (pd.1, pd.2.1), z, twoDiffTail p pa.2.2 pd.2.2 z⟩

/-- The terms of first order that belong to one point. (src/utils/Predicates.cpp:2671-2679) -/
def corr3 (p : Nat) (a b c : Side3) : ℚ :=
  rnd p (rnd p (a.z * rnd p (rnd p (rnd p (b.x * c.yt) + rnd p (c.y * b.xt)) - rnd p (rnd p (b.y * c.xt) + rnd p (c.x * b.yt)))) +
    rnd p (a.zt * rnd p (rnd p (b.x * c.y) - rnd p (b.y * c.x))))

/-- The components of a product, lower one first. (src/utils/Predicates.cpp:2694-2701) -/
def pair2 (p : Nat) (splitter a b : ℚ) : List ℚ :=
  let r := twoProduct p splitter a b
  [r.2, r.1]

/-- `at_b`, `bt_c`, `ct_a`: the value `adxtail * bdy - adytail * bdx`. (src/utils/Predicates.cpp:2687-2725, 2726-2764, 2765-2803) -/
def tailL (p : Nat) (splitter : ℚ) (a b : Side3) : List ℚ :=
  if a.xt = 0 then
    if a.yt = 0 then [0] else pair2 p splitter (-a.yt) b.x
  else if a.yt = 0 then pair2 p splitter a.xt b.y
  else diff4 p splitter a.xt b.y a.yt b.x

/-- `at_c`, `bt_a`, `ct_b`: the value `adytail * cdx - adxtail * cdy`. (src/utils/Predicates.cpp:2687-2725, 2726-2764, 2765-2803) -/
def tailR (p : Nat) (splitter : ℚ) (a c : Side3) : List ℚ :=
  if a.xt = 0 then
    if a.yt = 0 then [0] else pair2 p splitter a.yt c.x
  else if a.yt = 0 then pair2 p splitter (-a.xt) c.y
  else diff4 p splitter a.yt c.x a.xt c.y

/-- Add the product of an expansion and a number that is not zero. (src/utils/Predicates.cpp:2829-2836) -/
def addScaled (p : Nat) (splitter : ℚ) (e : List ℚ) (b : ℚ) (fin : List ℚ) : List ℚ :=
  if b ≠ 0 then fes p fin (scale p splitter e b) else fin

/-- Add the product of two tails `s`, `t` and the sum of `z` and its tail. (src/utils/Predicates.cpp:2855-2874) -/
def addTails (p : Nat) (splitter s t z zt : ℚ) (fin : List ℚ) : List ℚ :=
  if t ≠ 0 then
    let r := twoProduct p splitter s t
    let fin := fes p fin (twoOneProduct p splitter r.1 r.2 z)
    if zt ≠ 0 then fes p fin (twoOneProduct p splitter r.1 r.2 zt) else fin
  else fin

/-- The products of the tail of one coordinate with other tails. (src/utils/Predicates.cpp:2854-2894, 2895-2935, 2936-2976) -/
def tails3 (p : Nat) (splitter : ℚ) (a b c : Side3) (fin : List ℚ) : List ℚ :=
  if a.xt ≠ 0 then addTails p splitter (-a.xt) c.yt b.z b.zt (addTails p splitter a.xt b.yt c.z c.zt fin) else fin

/-- The last stage. (src/utils/Predicates.cpp:2684-3003) -/
def orientLast3 (p : Nat) (splitter : ℚ) (a b c : Side3) (bc ca ab fin : List ℚ) : List ℚ :=
  let bct := fes p (tailL p splitter b c) (tailR p splitter c b)
  let fin := fes p fin (scale p splitter bct a.z)
  let cat := fes p (tailL p splitter c a) (tailR p splitter a c)
  let fin := fes p fin (scale p splitter cat b.z)
  let abt := fes p (tailL p splitter a b) (tailR p splitter b a)
  let fin := fes p fin (scale p splitter abt c.z)
  let fin := addScaled p splitter bc a.zt fin
  let fin := addScaled p splitter ca b.zt fin
  let fin := addScaled p splitter ab c.zt fin
  let fin := tails3 p splitter a b c fin
  let fin := tails3 p splitter b c a fin
  let fin := tails3 p splitter c a b fin
  let fin := addScaled p splitter bct a.zt fin
  let fin := addScaled p splitter cat b.zt fin
  addScaled p splitter abt c.zt fin

/-- `orient_adapt` of the space. (src/utils/Predicates.cpp:2563-3004) -/
def orientAdapt3 (p : Nat) (k : Consts) (pa pb pc pd : ℚ × ℚ × ℚ) (permanent : ℚ) : ℚ :=
  let a := side3 p pa pd
  let b := side3 p pb pd
  let c := side3 p pc pd
  let bc := cross4 p k.splitter b.toSide c.toSide
  let ca := cross4 p k.splitter c.toSide a.toSide
  let ab := cross4 p k.splitter a.toSide b.toSide
  let fin1 := fes p (fes p (scale p k.splitter bc a.z) (scale p k.splitter ca b.z)) (scale p k.splitter ab c.z)
  let det := estimate p fin1
  let errbound := rnd p (k.o3derrboundB * permanent)
  if errbound ≤ det ∨ errbound ≤ -det then det
  else if a.xt = 0 ∧ b.xt = 0 ∧ c.xt = 0 ∧ a.yt = 0 ∧ b.yt = 0 ∧ c.yt = 0 ∧ a.zt = 0 ∧ b.zt = 0 ∧ c.zt = 0 then det
  else
    let errbound := rnd p (rnd p (k.o3derrboundC * permanent) + rnd p (k.resulterrbound * |det|))
    let det := rnd p (det + rnd p (rnd p (corr3 p a b c + corr3 p b c a) + corr3 p c a b))
    if errbound ≤ det ∨ errbound ≤ -det then det
    else top (orientLast3 p k.splitter a b c bc ca ab fin1)

/-- `orient` of the space. (src/utils/Predicates.cpp:3020-3058) -/
def orient3 (p : Nat) (k : Consts) (pa pb pc pd : ℚ × ℚ × ℚ) : ℚ :=
  let adx := rnd p (pa.1 - pd.1)
  let bdx := rnd p (pb.1 - pd.1)
  let cdx := rnd p (pc.1 - pd.1)
  let ady := rnd p (pa.2.1 - pd.2.1)
  let bdy := rnd p (pb.2.1 - pd.2.1)
  let cdy := rnd p (pc.2.1 - pd.2.1)
  let adz := rnd p (pa.2.2 - pd.2.2)
  let bdz := rnd p (pb.2.2 - pd.2.2)
  let cdz := rnd p (pc.2.2 - pd.2.2)
  let bdxcdy := rnd p (bdx * cdy)
  let cdxbdy := rnd p (cdx * bdy)
  let cdxady := rnd p (cdx * ady)
  let adxcdy := rnd p (adx * cdy)
  let adxbdy := rnd p (adx * bdy)
  let bdxady := rnd p (bdx * ady)
  let det := rnd p (rnd p (rnd p (adz * rnd p (bdxcdy - cdxbdy)) + rnd p (bdz * rnd p (cdxady - adxcdy))) +
    rnd p (cdz * rnd p (adxbdy - bdxady)))
  let permanent := rnd p (rnd p (rnd p (rnd p (|bdxcdy| + |cdxbdy|) * |adz|) + rnd p (rnd p (|cdxady| + |adxcdy|) * |bdz|)) +
    rnd p (rnd p (|adxbdy| + |bdxady|) * |cdz|))
  let errbound := rnd p (k.o3derrboundA * permanent)
  if errbound < det ∨ errbound < -det then det else orientAdapt3 p k pa pb pc pd permanent

end FP
end Verif
