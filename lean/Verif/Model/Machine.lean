import Verif.Model.FesArr
import Verif.Model.Insphere3

/-!
# The adaptive tests with the arithmetic and the arrays of the machine

`/repo/src/utils/Predicates.cpp`. The same functions as in `FP`, `Expansion`, `Orient2`, `Insphere2`, `Orient3` and `Insphere3`, with two
differences. The rounding `rd` is an arbitrary function, so that it can be the one of a machine with bounded exponents. Every
expansion is stored in an array of the size that the code declares, and writing beyond the end of an array is `Res.ub`.

Simplifications: an operation whose exact result is `x` returns `rd x`, there are no infinities. The components of an expansion are
written in increasing order without gaps, so that an array overflows if and only if it is shorter than the expansion. The read accesses
beyond the end are the subject of `FesArr`.
-/
namespace Verif
namespace FPM
open FP (Consts Side Side3 emit pickE finish top)

/-! ### Macros and functions for expansions -/

/-- `Fast_Two_Sum`: `(x, y)`. (src/utils/Predicates.cpp:166-172) -/
def fastTwoSum (rd : ℚ → ℚ) (a b : ℚ) : ℚ × ℚ :=
  let x := rd (a + b)
  let bvirt := rd (x - a)
  (x, rd (b - bvirt))

/-- `Two_Sum_Tail`. (src/utils/Predicates.cpp:182-187) -/
def twoSumTail (rd : ℚ → ℚ) (a b x : ℚ) : ℚ :=
  let bvirt := rd (x - a)
  let avirt := rd (x - bvirt)
  let bround := rd (b - bvirt)
  let around := rd (a - avirt)
  rd (around + bround)

/-- `Two_Sum`: `(x, y)`. (src/utils/Predicates.cpp:189-191) -/
def twoSum (rd : ℚ → ℚ) (a b : ℚ) : ℚ × ℚ := (rd (a + b), twoSumTail rd a b (rd (a + b)))

/-- `Two_Diff_Tail`. (src/utils/Predicates.cpp:193-198) -/
def twoDiffTail (rd : ℚ → ℚ) (a b x : ℚ) : ℚ :=
  let bvirt := rd (a - x)
  let avirt := rd (x + bvirt)
  let bround := rd (bvirt - b)
  let around := rd (a - avirt)
  rd (around + bround)

/-- `Two_Diff`: `(x, y)`. (src/utils/Predicates.cpp:200-202) -/
def twoDiff (rd : ℚ → ℚ) (a b : ℚ) : ℚ × ℚ := (rd (a - b), twoDiffTail rd a b (rd (a - b)))

/-- `Split`: `(ahi, alo)`. (src/utils/Predicates.cpp:204-208) -/
def split (rd : ℚ → ℚ) (splitter a : ℚ) : ℚ × ℚ :=
  let c := rd (splitter * a)
  let abig := rd (c - a)
  let ahi := rd (c - abig)
  (ahi, rd (a - ahi))

/-- The last lines of `Two_Product_Tail`, `Two_Product_Presplit` and `Two_Product_2Presplit`. (src/utils/Predicates.cpp:213-216,
228-231, 238-241) -/
def productTail (rd : ℚ → ℚ) (x ahi alo bhi blo : ℚ) : ℚ :=
  let err1 := rd (x - rd (ahi * bhi))
  let err2 := rd (err1 - rd (alo * bhi))
  let err3 := rd (err2 - rd (ahi * blo))
  rd (rd (alo * blo) - err3)

/-- `Two_Product`: `(x, y)`; also `Two_Product_Presplit` and `Two_Product_2Presplit`, which get the results of `Split` from the
caller. (src/utils/Predicates.cpp:210-241) -/
def twoProduct (rd : ℚ → ℚ) (splitter a b : ℚ) : ℚ × ℚ :=
  let sa := split rd splitter a
  let sb := split rd splitter b
  (rd (a * b), productTail rd (rd (a * b)) sa.1 sa.2 sb.1 sb.2)

/-- `Square`: `(x, y)`. (src/utils/Predicates.cpp:245-253) -/
def square (rd : ℚ → ℚ) (splitter a : ℚ) : ℚ × ℚ :=
  let sa := split rd splitter a
  let x := rd (a * a)
  let err1 := rd (x - rd (sa.1 * sa.1))
  let err3 := rd (err1 - rd (rd (sa.1 + sa.1) * sa.2))
  (x, rd (rd (sa.2 * sa.2) - err3))

/-- `Two_One_Diff`: `[x0, x1, x2]`. (src/utils/Predicates.cpp:261-263) -/
def twoOneDiff (rd : ℚ → ℚ) (a1 a0 b : ℚ) : ℚ × ℚ × ℚ :=
  let r := twoDiff rd a0 b
  let t := twoSum rd a1 r.1
  (t.1, t.2, r.2)

/-- `Two_Two_Diff`: `[x0, x1, x2, x3]`. (src/utils/Predicates.cpp:269-271) -/
def twoTwoDiff (rd : ℚ → ℚ) (a1 a0 b1 b0 : ℚ) : List ℚ :=
  let r := twoOneDiff rd a1 a0 b0
  let t := twoOneDiff rd r.1 r.2.1 b1
  [r.2.2, t.2.2, t.2.1, t.1]

/-- The loops of `fast_expansion_sum_zeroelim`: components appended to `h`, and the last `Q`.
(src/utils/Predicates.cpp:814-842) -/
def fesLoop (rd : ℚ → ℚ) : List ℚ → List ℚ → ℚ → List ℚ × ℚ
  | [], [], Q => ([], Q)
  | e :: es, [], Q =>
    let r := twoSum rd Q e
    let t := fesLoop rd es [] r.1
    (emit r.2 t.1, t.2)
  | [], f :: fs, Q =>
    let r := twoSum rd Q f
    let t := fesLoop rd [] fs r.1
    (emit r.2 t.1, t.2)
  | e :: es, f :: fs, Q =>
    if pickE e f then
      let r := twoSum rd Q e
      let t := fesLoop rd es (f :: fs) r.1
      (emit r.2 t.1, t.2)
    else
      let r := twoSum rd Q f
      let t := fesLoop rd (e :: es) fs r.1
      (emit r.2 t.1, t.2)
termination_by es fs => es.length + fs.length

/-- The part after the first component. (src/utils/Predicates.cpp:800-842) -/
def fesRest (rd : ℚ → ℚ) (es fs : List ℚ) (Q : ℚ) : List ℚ × ℚ :=
  match es, fs with
  | e :: es, f :: fs =>
    if pickE e f then
      let r := fastTwoSum rd e Q
      let t := fesLoop rd es (f :: fs) r.1
      (emit r.2 t.1, t.2)
    else
      let r := fastTwoSum rd f Q
      let t := fesLoop rd (e :: es) fs r.1
      (emit r.2 t.1, t.2)
  | es, fs => fesLoop rd es fs Q

/-- `fast_expansion_sum_zeroelim`. Both arguments have at least one component; otherwise the code reads components that do not exist,
here the result is then empty. Simplification: the code reads one component past the end of both arguments and does not use it, see
`fesA`. (src/utils/Predicates.cpp:779-848) -/
def fes (rd : ℚ → ℚ) (e f : List ℚ) : List ℚ :=
  match e, f with
  | e0 :: es, f0 :: fs => finish (if pickE e0 f0 then fesRest rd es (f0 :: fs) e0 else fesRest rd (e0 :: es) fs f0)
  | _, _ => []

/-- The loop of `scale_expansion_zeroelim`. (src/utils/Predicates.cpp:1061-1073) -/
def scaleLoop (rd : ℚ → ℚ) (splitter b : ℚ) : List ℚ → ℚ → List ℚ × ℚ
  | [], Q => ([], Q)
  | e :: es, Q =>
    let pr := twoProduct rd splitter e b
    let s := twoSum rd Q pr.2
    let q := fastTwoSum rd pr.1 s.1
    let t := scaleLoop rd splitter b es q.1
    (emit s.2 (emit q.2 t.1), t.2)

/-- `scale_expansion_zeroelim`. The argument has at least one component. (src/utils/Predicates.cpp:1037-1078) -/
def scale (rd : ℚ → ℚ) (splitter : ℚ) (e : List ℚ) (b : ℚ) : List ℚ :=
  match e with
  | e0 :: es =>
    let pr := twoProduct rd splitter e0 b
    let t := scaleLoop rd splitter b es pr.1
    finish (emit pr.2 t.1, t.2)
  | [] => []

/-- `estimate`. (src/utils/Predicates.cpp:1132-1142) -/
def estimate (rd : ℚ → ℚ) (e : List ℚ) : ℚ :=
  match e with
  | e0 :: es => es.foldl (fun Q y => rd (Q + y)) e0
  | [] => 0

/-- The expansion `h` in an array of `n` elements. (src/utils/Predicates.cpp, declarations of the arrays) -/
def store (n : Nat) (h : List ℚ) : Res (List ℚ) := if h.length ≤ n then .done h else .ub

/-- `fast_expansion_sum_zeroelim` with an array of `n` elements for the result. An argument without components is an array that has not
been initialised. (src/utils/Predicates.cpp:779-848) -/
def fesTo (rd : ℚ → ℚ) (n : Nat) (e f : List ℚ) : Res (List ℚ) := if e = [] ∨ f = [] then .ub else store n (fes rd e f)

/-- `scale_expansion_zeroelim` with an array of `n` elements for the result. An argument without components is an array that has not
been initialised. (src/utils/Predicates.cpp:1037-1078) -/
def scaleTo (rd : ℚ → ℚ) (splitter : ℚ) (n : Nat) (e : List ℚ) (b : ℚ) : Res (List ℚ) :=
  if e = [] then .ub else store n (scale rd splitter e b)

/-! ### Orientation test in the plane -/

/-- `[u[0], .., u[3]]` with the value `a * b - c * d`. (src/utils/Predicates.cpp:1299-1304, 1327-1330) -/
def diff4 (rd : ℚ → ℚ) (splitter a b c d : ℚ) : List ℚ :=
  let s := twoProduct rd splitter a b
  let t := twoProduct rd splitter c d
  twoTwoDiff rd s.1 s.2 t.1 t.2

/-- `orient_adapt` of the plane. (src/utils/Predicates.cpp:1268-1345) -/
def orientAdapt2 (rd : ℚ → ℚ) (c : Consts) (pa pb pc : ℚ × ℚ) (detsum : ℚ) : Res ℚ :=
  let acx := rd (pa.1 - pc.1)
  let bcx := rd (pb.1 - pc.1)
  let acy := rd (pa.2 - pc.2)
  let bcy := rd (pb.2 - pc.2)
  let B := diff4 rd c.splitter acx bcy acy bcx
  let det := estimate rd B
  let errbound := rd (c.ccwerrboundB * detsum)
  if errbound ≤ det ∨ errbound ≤ -det then .done det
  else
    let acxtail := twoDiffTail rd pa.1 pc.1 acx
    let bcxtail := twoDiffTail rd pb.1 pc.1 bcx
    let acytail := twoDiffTail rd pa.2 pc.2 acy
    let bcytail := twoDiffTail rd pb.2 pc.2 bcy
    if acxtail = 0 ∧ acytail = 0 ∧ bcxtail = 0 ∧ bcytail = 0 then .done det
    else
      let errbound := rd (rd (c.ccwerrboundC * detsum) + rd (c.resulterrbound * |det|))
      let det := rd (det + rd (rd (rd (acx * bcytail) + rd (bcy * acxtail)) -
        rd (rd (acy * bcxtail) + rd (bcx * acytail))))
      if errbound ≤ det ∨ errbound ≤ -det then .done det
      else do
        let C1 ← fesTo rd 8 B (diff4 rd c.splitter acxtail bcy acytail bcx)
        let C2 ← fesTo rd 12 C1 (diff4 rd c.splitter acx bcytail acy bcxtail)
        let D ← fesTo rd 16 C2 (diff4 rd c.splitter acxtail bcytail acytail bcxtail)
        return top D

/-- `orient` of the plane. (src/utils/Predicates.cpp:1347-1380) -/
def orient2 (rd : ℚ → ℚ) (c : Consts) (pa pb pc : ℚ × ℚ) : Res ℚ :=
  let detleft := rd (rd (pa.1 - pc.1) * rd (pb.2 - pc.2))
  let detright := rd (rd (pa.2 - pc.2) * rd (pb.1 - pc.1))
  let det := rd (detleft - detright)
  let rest (detsum : ℚ) : Res ℚ :=
    let errbound := rd (c.ccwerrboundA * detsum)
    if errbound ≤ det ∨ errbound ≤ -det then .done det else orientAdapt2 rd c pa pb pc detsum
  if 0 < detleft then
    if detright ≤ 0 then .done det else rest (rd (detleft + detright))
  else if detleft < 0 then
    if 0 ≤ detright then .done det else rest (rd (-detleft - detright))
  else .done det

/-! ### Incircle test in the plane -/

/-- `Two_One_Sum`: `(x2, x1, x0)`. (src/utils/Predicates.cpp:257-259) -/
def twoOneSum (rd : ℚ → ℚ) (a1 a0 b : ℚ) : ℚ × ℚ × ℚ :=
  let r := twoSum rd a0 b
  let t := twoSum rd a1 r.1
  (t.1, t.2, r.2)

/-- `Two_Two_Sum`: `[x0, x1, x2, x3]`. (src/utils/Predicates.cpp:265-267) -/
def twoTwoSum (rd : ℚ → ℚ) (a1 a0 b1 b0 : ℚ) : List ℚ :=
  let r := twoOneSum rd a1 a0 b0
  let t := twoOneSum rd r.1 r.2.1 b1
  [r.2.2, t.2.2, t.2.1, t.1]

/-- Four components with the value `a * b + c * d`. (src/utils/Predicates.cpp:1968-1977) -/
def sum4 (rd : ℚ → ℚ) (splitter a b c d : ℚ) : List ℚ :=
  let s := twoProduct rd splitter a b
  let t := twoProduct rd splitter c d
  twoTwoSum rd s.1 s.2 t.1 t.2

/-- Four components with the value `a * a + b * b`. (src/utils/Predicates.cpp:1818-1821) -/
def squares4 (rd : ℚ → ℚ) (splitter a b : ℚ) : List ℚ :=
  let s := square rd splitter a
  let t := square rd splitter b
  twoTwoSum rd s.1 s.2 t.1 t.2

/-- The coordinates of `pa` relative to `pd`. The code computes the tails only when it needs them.
(src/utils/Predicates.cpp:1742-1747, 1789-1794) -/
def side (rd : ℚ → ℚ) (pa pd : ℚ × ℚ) : Side :=
  let x := rd (pa.1 - pd.1)
  let y := rd (pa.2 - pd.2)
  ⟨x, y, twoDiffTail rd pa.1 pd.1 x, twoDiffTail rd pa.2 pd.2 y⟩

/-- `bc` for `b` and `c`, and similarly `ca`, `ab`. (src/utils/Predicates.cpp:1749-1752, 1759-1762, 1769-1772) -/
def cross4 (rd : ℚ → ℚ) (splitter : ℚ) (b c : Side) : List ℚ := diff4 rd splitter b.x c.y c.x b.y

/-- `adet`, `bdet`, `cdet`. (src/utils/Predicates.cpp:1753-1757, 1763-1767, 1773-1777) -/
def liftDet (rd : ℚ → ℚ) (splitter : ℚ) (a : Side) (bc : List ℚ) : Res (List ℚ) := do
  let axbc ← scaleTo rd splitter 8 bc a.x
  let axxbc ← scaleTo rd splitter 16 axbc a.x
  let aybc ← scaleTo rd splitter 8 bc a.y
  let ayybc ← scaleTo rd splitter 16 aybc a.y
  fesTo rd 32 axxbc ayybc

/-- The terms of first order that belong to one point. (src/utils/Predicates.cpp:1801-1803, 1804-1806, 1807-1809) -/
def corr2 (rd : ℚ → ℚ) (a b c : Side) : ℚ :=
  rd (rd (rd (rd (a.x * a.x) + rd (a.y * a.y)) *
      rd (rd (rd (b.x * c.yt) + rd (c.y * b.xt)) - rd (rd (b.y * c.xt) + rd (c.x * b.yt)))) +
    rd (rd (2 * rd (rd (a.x * a.xt) + rd (a.y * a.yt))) * rd (rd (b.x * c.y) - rd (b.y * c.x))))

/-- `aa`, `bb`, `cc`: computed only if a tail of another point is not zero, otherwise the array is not initialised, here empty.
(src/utils/Predicates.cpp:1816-1836) -/
def lift4 (rd : ℚ → ℚ) (splitter : ℚ) (a b c : Side) : List ℚ :=
  if b.inexact || c.inexact then squares4 rd splitter a.x a.y else []

/-- The term for `adxtail`, `bdxtail`, `cdxtail`. (src/utils/Predicates.cpp:1838-1857, 1880-1899, 1922-1941) -/
def firstX (rd : ℚ → ℚ) (splitter : ℚ) (a b c : Side) (bc bb cc fin : List ℚ) : Res (List ℚ) :=
  if a.xt ≠ 0 then do
    let axtbc ← scaleTo rd splitter 8 bc a.xt
    let temp16a ← scaleTo rd splitter 16 axtbc (rd (2 * a.x))
    let axtcc ← scaleTo rd splitter 8 cc a.xt
    let temp16b ← scaleTo rd splitter 16 axtcc b.y
    let axtbb ← scaleTo rd splitter 8 bb a.xt
    let temp16c ← scaleTo rd splitter 16 axtbb (-c.y)
    let temp32a ← fesTo rd 32 temp16a temp16b
    let temp48 ← fesTo rd 48 temp16c temp32a
    fesTo rd 1152 fin temp48
  else .done fin

/-- The term for `adytail`, `bdytail`, `cdytail`. (src/utils/Predicates.cpp:1859-1878, 1901-1920, 1943-1962) -/
def firstY (rd : ℚ → ℚ) (splitter : ℚ) (a b c : Side) (bc bb cc fin : List ℚ) : Res (List ℚ) :=
  if a.yt ≠ 0 then do
    let aytbc ← scaleTo rd splitter 8 bc a.yt
    let temp16a ← scaleTo rd splitter 16 aytbc (rd (2 * a.y))
    let aytbb ← scaleTo rd splitter 8 bb a.yt
    let temp16b ← scaleTo rd splitter 16 aytbb c.x
    let aytcc ← scaleTo rd splitter 8 cc a.yt
    let temp16c ← scaleTo rd splitter 16 aytcc (-b.x)
    let temp32a ← fesTo rd 32 temp16a temp16b
    let temp48 ← fesTo rd 48 temp16c temp32a
    fesTo rd 1152 fin temp48
  else .done fin

/-- `bct`, `cat`, `abt`. (src/utils/Predicates.cpp:1966-1989, 2075-2098, 2184-2207) -/
def crossT (rd : ℚ → ℚ) (splitter : ℚ) (b c : Side) : Res (List ℚ) :=
  if b.inexact || c.inexact then
    fesTo rd 8 (sum4 rd splitter b.xt c.y b.x c.yt) (sum4 rd splitter c.xt (-b.y) c.x (-b.yt))
  else .done [0]

/-- `bctt`, `catt`, `abtt`. (src/utils/Predicates.cpp:1979-1988, 2088-2097, 2197-2206) -/
def crossTT (rd : ℚ → ℚ) (splitter : ℚ) (b c : Side) : List ℚ :=
  if b.inexact || c.inexact then diff4 rd splitter b.xt c.yt c.xt b.yt else [0]

/-- A product of two tails and the square of a third point. (src/utils/Predicates.cpp:2003-2022) -/
def secondXY (rd : ℚ → ℚ) (splitter s t : ℚ) (cc fin : List ℚ) : Res (List ℚ) :=
  if t ≠ 0 then do
    let temp8 ← scaleTo rd splitter 8 cc s
    let temp16a ← scaleTo rd splitter 16 temp8 t
    fesTo rd 1152 fin temp16a
  else .done fin

/-- The terms of second order with one coordinate `x` of a point and its tail `t`: before the products with the other points.
(src/utils/Predicates.cpp:1992-2002, 2039-2048) -/
def secondPre (rd : ℚ → ℚ) (splitter x t : ℚ) (bc bct fin : List ℚ) : Res (List ℚ) := do
  let axtbc ← scaleTo rd splitter 8 bc t
  let temp16a ← scaleTo rd splitter 16 axtbc t
  let axtbct ← scaleTo rd splitter 16 bct t
  let temp32a ← scaleTo rd splitter 32 axtbct (rd (2 * x))
  let temp48 ← fesTo rd 48 temp16a temp32a
  fesTo rd 1152 fin temp48

/-- The same, after the products. (src/utils/Predicates.cpp:2024-2037, 2051-2064) -/
def secondPost (rd : ℚ → ℚ) (splitter x t : ℚ) (bct bctt fin : List ℚ) : Res (List ℚ) := do
  let axtbct ← scaleTo rd splitter 16 bct t
  let temp32a ← scaleTo rd splitter 32 axtbct t
  let axtbctt ← scaleTo rd splitter 8 bctt t
  let temp16a ← scaleTo rd splitter 16 axtbctt (rd (2 * x))
  let temp16b ← scaleTo rd splitter 16 axtbctt t
  let temp32b ← fesTo rd 32 temp16a temp16b
  let temp64 ← fesTo rd 64 temp32a temp32b
  fesTo rd 1152 fin temp64

/-- The terms of second order with `adxtail`. (src/utils/Predicates.cpp:1991-2037, 2100-2146, 2209-2255) -/
def secondX (rd : ℚ → ℚ) (splitter : ℚ) (a b c : Side) (bc bb cc bct bctt fin : List ℚ) : Res (List ℚ) :=
  if a.xt ≠ 0 then do
    let fin ← secondPre rd splitter a.x a.xt bc bct fin
    let fin ← secondXY rd splitter a.xt b.yt cc fin
    let fin ← secondXY rd splitter (-a.xt) c.yt bb fin
    secondPost rd splitter a.x a.xt bct bctt fin
  else .done fin

/-- The terms of second order with `adytail`. (src/utils/Predicates.cpp:2038-2071, 2147-2180, 2256-2289) -/
def secondY (rd : ℚ → ℚ) (splitter : ℚ) (a : Side) (bc bct bctt fin : List ℚ) : Res (List ℚ) :=
  if a.yt ≠ 0 then do
    let fin ← secondPre rd splitter a.y a.yt bc bct fin
    secondPost rd splitter a.y a.yt bct bctt fin
  else .done fin

/-- The terms of second order for one point. (src/utils/Predicates.cpp:1964-2072, 2073-2181, 2182-2290) -/
def second (rd : ℚ → ℚ) (splitter : ℚ) (a b c : Side) (bc bb cc fin : List ℚ) : Res (List ℚ) :=
  if a.inexact then do
    let bct ← crossT rd splitter b c
    let bctt := crossTT rd splitter b c
    let fin ← secondX rd splitter a b c bc bb cc bct bctt fin
    secondY rd splitter a bc bct bctt fin
  else .done fin

/-- The last stage. (src/utils/Predicates.cpp:1814-2292) -/
def insphereLast2 (rd : ℚ → ℚ) (splitter : ℚ) (a b c : Side) (bc ca ab fin : List ℚ) : Res (List ℚ) := do
  let aa := lift4 rd splitter a b c
  let bb := lift4 rd splitter b c a
  let cc := lift4 rd splitter c a b
  let fin ← firstX rd splitter a b c bc bb cc fin
  let fin ← firstY rd splitter a b c bc bb cc fin
  let fin ← firstX rd splitter b c a ca cc aa fin
  let fin ← firstY rd splitter b c a ca cc aa fin
  let fin ← firstX rd splitter c a b ab aa bb fin
  let fin ← firstY rd splitter c a b ab aa bb fin
  let fin ← second rd splitter a b c bc bb cc fin
  let fin ← second rd splitter b c a ca cc aa fin
  second rd splitter c a b ab aa bb fin

/-- `insphere_adapt` of the plane. (src/utils/Predicates.cpp:1679-2294) -/
def insphereAdapt2 (rd : ℚ → ℚ) (k : Consts) (pa pb pc pd : ℚ × ℚ) (permanent : ℚ) : Res ℚ := do
  let a := side rd pa pd
  let b := side rd pb pd
  let c := side rd pc pd
  let bc := cross4 rd k.splitter b c
  let ca := cross4 rd k.splitter c a
  let ab := cross4 rd k.splitter a b
  let adet ← liftDet rd k.splitter a bc
  let bdet ← liftDet rd k.splitter b ca
  let cdet ← liftDet rd k.splitter c ab
  let abdet ← fesTo rd 64 adet bdet
  let fin1 ← fesTo rd 1152 abdet cdet
  let det := estimate rd fin1
  let errbound := rd (k.iccerrboundA * permanent)
  if errbound ≤ det ∨ errbound ≤ -det then return det
  else if a.xt = 0 ∧ b.xt = 0 ∧ c.xt = 0 ∧ a.yt = 0 ∧ b.yt = 0 ∧ c.yt = 0 then return det
  else
    let errbound := rd (rd (k.iccerrboundC * permanent) + rd (k.resulterrbound * |det|))
    let det := rd (det + rd (rd (corr2 rd a b c + corr2 rd b c a) + corr2 rd c a b))
    if errbound ≤ det ∨ errbound ≤ -det then return det
    else do
      let fin ← insphereLast2 rd k.splitter a b c bc ca ab fin1
      return top fin

/-- `insphere` of the plane. (src/utils/Predicates.cpp:2296-2338) -/
def insphere2 (rd : ℚ → ℚ) (k : Consts) (pa pb pc pd : ℚ × ℚ) : Res ℚ :=
  let adx := rd (pa.1 - pd.1)
  let bdx := rd (pb.1 - pd.1)
  let cdx := rd (pc.1 - pd.1)
  let ady := rd (pa.2 - pd.2)
  let bdy := rd (pb.2 - pd.2)
  let cdy := rd (pc.2 - pd.2)
  let bdxcdy := rd (bdx * cdy)
  let cdxbdy := rd (cdx * bdy)
  let alift := rd (rd (adx * adx) + rd (ady * ady))
  let cdxady := rd (cdx * ady)
  let adxcdy := rd (adx * cdy)
  let blift := rd (rd (bdx * bdx) + rd (bdy * bdy))
  let adxbdy := rd (adx * bdy)
  let bdxady := rd (bdx * ady)
  let clift := rd (rd (cdx * cdx) + rd (cdy * cdy))
  let det := rd (rd (rd (alift * rd (bdxcdy - cdxbdy)) + rd (blift * rd (cdxady - adxcdy))) +
    rd (clift * rd (adxbdy - bdxady)))
  let permanent := rd (rd (rd (rd (|bdxcdy| + |cdxbdy|) * alift) + rd (rd (|cdxady| + |adxcdy|) * blift)) +
    rd (rd (|adxbdy| + |bdxady|) * clift))
  let errbound := rd (k.iccerrboundA * permanent)
  if errbound < det ∨ errbound < -det then .done det else insphereAdapt2 rd k pa pb pc pd permanent

/-! ### Orientation test in space -/

/-- `Two_One_Product`: `[x0, x1, x2, x3]`. (src/utils/Predicates.cpp:308-313) -/
def twoOneProduct (rd : ℚ → ℚ) (splitter a1 a0 b : ℚ) : List ℚ :=
  let i := twoProduct rd splitter a0 b
  let j := twoProduct rd splitter a1 b
  let k := twoSum rd i.1 j.2
  let t := fastTwoSum rd j.1 k.1
  [i.2, k.2, t.2, t.1]

/-- The coordinates of `pa` relative to `pd`. The code computes the tails only when it needs them.
(src/utils/Predicates.cpp:2617-2625, 2654-2662) -/
def side3 (rd : ℚ → ℚ) (pa pd : ℚ × ℚ × ℚ) : Side3 :=
  let z := rd (pa.2.2 - pd.2.2)
  ⟨side rd (pa.1, pa.2.1) (pd.1, pd.2.1), z, twoDiffTail rd pa.2.2 pd.2.2 z⟩

/-- The terms of first order that belong to one point. (src/utils/Predicates.cpp:2671-2679) -/
def corr3 (rd : ℚ → ℚ) (a b c : Side3) : ℚ :=
  rd (rd (a.z * rd (rd (rd (b.x * c.yt) + rd (c.y * b.xt)) - rd (rd (b.y * c.xt) + rd (c.x * b.yt)))) +
    rd (a.zt * rd (rd (b.x * c.y) - rd (b.y * c.x))))

/-- The components of a product, lower one first. (src/utils/Predicates.cpp:2694-2701) -/
def pair2 (rd : ℚ → ℚ) (splitter a b : ℚ) : List ℚ :=
  let r := twoProduct rd splitter a b
  [r.2, r.1]

/-- `at_b`, `bt_c`, `ct_a`: the value `adxtail * bdy - adytail * bdx`. (src/utils/Predicates.cpp:2687-2725, 2726-2764, 2765-2803) -/
def tailL (rd : ℚ → ℚ) (splitter : ℚ) (a b : Side3) : List ℚ :=
  if a.xt = 0 then
    if a.yt = 0 then [0] else pair2 rd splitter (-a.yt) b.x
  else if a.yt = 0 then pair2 rd splitter a.xt b.y
  else diff4 rd splitter a.xt b.y a.yt b.x

/-- `at_c`, `bt_a`, `ct_b`: the value `adytail * cdx - adxtail * cdy`. (src/utils/Predicates.cpp:2687-2725, 2726-2764, 2765-2803) -/
def tailR (rd : ℚ → ℚ) (splitter : ℚ) (a c : Side3) : List ℚ :=
  if a.xt = 0 then
    if a.yt = 0 then [0] else pair2 rd splitter a.yt c.x
  else if a.yt = 0 then pair2 rd splitter (-a.xt) c.y
  else diff4 rd splitter a.yt c.x a.xt c.y

/-- Add the product of an expansion and a number that is not zero. `n` is the size of the array for the product, 12 for `v` and 16 for
`w`. (src/utils/Predicates.cpp:2829-2852, 2978-3001) -/
def addScaled (rd : ℚ → ℚ) (splitter : ℚ) (n : Nat) (e : List ℚ) (b : ℚ) (fin : List ℚ) : Res (List ℚ) :=
  if b ≠ 0 then do
    let v ← scaleTo rd splitter n e b
    fesTo rd 192 fin v
  else .done fin

/-- Add the product of two tails `s`, `t` and the sum of `z` and its tail. (src/utils/Predicates.cpp:2855-2874) -/
def addTails (rd : ℚ → ℚ) (splitter s t z zt : ℚ) (fin : List ℚ) : Res (List ℚ) :=
  if t ≠ 0 then do
    let r := twoProduct rd splitter s t
    let fin ← fesTo rd 192 fin (twoOneProduct rd splitter r.1 r.2 z)
    if zt ≠ 0 then fesTo rd 192 fin (twoOneProduct rd splitter r.1 r.2 zt) else .done fin
  else .done fin

/-- The products of the tail of one coordinate with other tails. (src/utils/Predicates.cpp:2854-2894, 2895-2935, 2936-2976) -/
def tails3 (rd : ℚ → ℚ) (splitter : ℚ) (a b c : Side3) (fin : List ℚ) : Res (List ℚ) :=
  if a.xt ≠ 0 then do
    let fin ← addTails rd splitter a.xt b.yt c.z c.zt fin
    addTails rd splitter (-a.xt) c.yt b.z b.zt fin
  else .done fin

/-- The last stage. (src/utils/Predicates.cpp:2684-3003) -/
def orientLast3 (rd : ℚ → ℚ) (splitter : ℚ) (a b c : Side3) (bc ca ab fin : List ℚ) : Res (List ℚ) := do
  let bct ← fesTo rd 8 (tailL rd splitter b c) (tailR rd splitter c b)
  let w ← scaleTo rd splitter 16 bct a.z
  let fin ← fesTo rd 192 fin w
  let cat ← fesTo rd 8 (tailL rd splitter c a) (tailR rd splitter a c)
  let w ← scaleTo rd splitter 16 cat b.z
  let fin ← fesTo rd 192 fin w
  let abt ← fesTo rd 8 (tailL rd splitter a b) (tailR rd splitter b a)
  let w ← scaleTo rd splitter 16 abt c.z
  let fin ← fesTo rd 192 fin w
  let fin ← addScaled rd splitter 12 bc a.zt fin
  let fin ← addScaled rd splitter 12 ca b.zt fin
  let fin ← addScaled rd splitter 12 ab c.zt fin
  let fin ← tails3 rd splitter a b c fin
  let fin ← tails3 rd splitter b c a fin
  let fin ← tails3 rd splitter c a b fin
  let fin ← addScaled rd splitter 16 bct a.zt fin
  let fin ← addScaled rd splitter 16 cat b.zt fin
  addScaled rd splitter 16 abt c.zt fin

/-- `orient_adapt` of the space. (src/utils/Predicates.cpp:2563-3004) -/
def orientAdapt3 (rd : ℚ → ℚ) (k : Consts) (pa pb pc pd : ℚ × ℚ × ℚ) (permanent : ℚ) : Res ℚ := do
  let a := side3 rd pa pd
  let b := side3 rd pb pd
  let c := side3 rd pc pd
  let bc := cross4 rd k.splitter b.toSide c.toSide
  let ca := cross4 rd k.splitter c.toSide a.toSide
  let ab := cross4 rd k.splitter a.toSide b.toSide
  let adet ← scaleTo rd k.splitter 8 bc a.z
  let bdet ← scaleTo rd k.splitter 8 ca b.z
  let cdet ← scaleTo rd k.splitter 8 ab c.z
  let abdet ← fesTo rd 16 adet bdet
  let fin1 ← fesTo rd 192 abdet cdet
  let det := estimate rd fin1
  let errbound := rd (k.o3derrboundB * permanent)
  if errbound ≤ det ∨ errbound ≤ -det then return det
  else if a.xt = 0 ∧ b.xt = 0 ∧ c.xt = 0 ∧ a.yt = 0 ∧ b.yt = 0 ∧ c.yt = 0 ∧ a.zt = 0 ∧ b.zt = 0 ∧ c.zt = 0 then return det
  else
    let errbound := rd (rd (k.o3derrboundC * permanent) + rd (k.resulterrbound * |det|))
    let det := rd (det + rd (rd (corr3 rd a b c + corr3 rd b c a) + corr3 rd c a b))
    if errbound ≤ det ∨ errbound ≤ -det then return det
    else do
      let fin ← orientLast3 rd k.splitter a b c bc ca ab fin1
      return top fin

/-- `orient` of the space. (src/utils/Predicates.cpp:3020-3058) -/
def orient3 (rd : ℚ → ℚ) (k : Consts) (pa pb pc pd : ℚ × ℚ × ℚ) : Res ℚ :=
  let adx := rd (pa.1 - pd.1)
  let bdx := rd (pb.1 - pd.1)
  let cdx := rd (pc.1 - pd.1)
  let ady := rd (pa.2.1 - pd.2.1)
  let bdy := rd (pb.2.1 - pd.2.1)
  let cdy := rd (pc.2.1 - pd.2.1)
  let adz := rd (pa.2.2 - pd.2.2)
  let bdz := rd (pb.2.2 - pd.2.2)
  let cdz := rd (pc.2.2 - pd.2.2)
  let bdxcdy := rd (bdx * cdy)
  let cdxbdy := rd (cdx * bdy)
  let cdxady := rd (cdx * ady)
  let adxcdy := rd (adx * cdy)
  let adxbdy := rd (adx * bdy)
  let bdxady := rd (bdx * ady)
  let det := rd (rd (rd (adz * rd (bdxcdy - cdxbdy)) + rd (bdz * rd (cdxady - adxcdy))) +
    rd (cdz * rd (adxbdy - bdxady)))
  let permanent := rd (rd (rd (rd (|bdxcdy| + |cdxbdy|) * |adz|) + rd (rd (|cdxady| + |adxcdy|) * |bdz|)) +
    rd (rd (|adxbdy| + |bdxady|) * |cdz|))
  let errbound := rd (k.o3derrboundA * permanent)
  if errbound < det ∨ errbound < -det then .done det else orientAdapt3 rd k pa pb pc pd permanent

/-! ### Insphere test in space -/

/-- `temp24`, and `abc`, ..., `eac` of the exact stage: the sum of three expansions times numbers.
(src/utils/Predicates.cpp:3215-3221, 3793-3799) -/
def sum24 (rd : ℚ → ℚ) (splitter : ℚ) (e : List ℚ) (x : ℚ) (f : List ℚ) (y : ℚ) (g : List ℚ) (z : ℚ) : Res (List ℚ) := do
  let temp8a ← scaleTo rd splitter 8 e x
  let temp8b ← scaleTo rd splitter 8 f y
  let temp8c ← scaleTo rd splitter 8 g z
  let temp16 ← fesTo rd 16 temp8a temp8b
  fesTo rd 24 temp8c temp16

/-- `adet`, `ddet`, ..: an expansion times the squared length of a vector. `n1`, ..., `n4` are the sizes of the arrays.
(src/utils/Predicates.cpp:3302-3309, 3816-3823) -/
def liftPos (rd : ℚ → ℚ) (splitter : ℚ) (n1 n2 n3 n4 : Nat) (t : List ℚ) (x y z : ℚ) : Res (List ℚ) := do
  let t1 ← scaleTo rd splitter n1 t x
  let xdet ← scaleTo rd splitter n2 t1 x
  let t2 ← scaleTo rd splitter n1 t y
  let ydet ← scaleTo rd splitter n2 t2 y
  let t3 ← scaleTo rd splitter n1 t z
  let zdet ← scaleTo rd splitter n2 t3 z
  let xydet ← fesTo rd n3 xdet ydet
  fesTo rd n4 xydet zdet

/-- `adet`, `cdet` of `insphere_adapt`: the same with opposite sign. (src/utils/Predicates.cpp:3800-3807, 3832-3839) -/
def liftNeg (rd : ℚ → ℚ) (splitter : ℚ) (n1 n2 n3 n4 : Nat) (t : List ℚ) (x y z : ℚ) : Res (List ℚ) := do
  let t1 ← scaleTo rd splitter n1 t x
  let xdet ← scaleTo rd splitter n2 t1 (-x)
  let t2 ← scaleTo rd splitter n1 t y
  let ydet ← scaleTo rd splitter n2 t2 (-y)
  let t3 ← scaleTo rd splitter n1 t z
  let zdet ← scaleTo rd splitter n2 t3 (-z)
  let xydet ← fesTo rd n3 xdet ydet
  fesTo rd n4 xydet zdet

/-- `abcd`, `bcde`, `cdea`, `deab`, `eabc`: `e + f - (g + h)`. (src/utils/Predicates.cpp:3295-3301) -/
def comb96 (rd : ℚ → ℚ) (e f g h : List ℚ) : Res (List ℚ) := do
  let temp48a ← fesTo rd 48 e f
  let temp48b ← fesTo rd 48 g h
  fesTo rd 96 temp48a (temp48b.map (fun x => -x))

/-- `ab`, `bc`, ... of the exact stage. (src/utils/Predicates.cpp:3175-3213) -/
def raw4 (rd : ℚ → ℚ) (splitter : ℚ) (a b : ℚ × ℚ × ℚ) : List ℚ := diff4 rd splitter a.1 b.2.1 b.1 a.2.1

/-- `insphere_exact` of the space, all components. (src/utils/Predicates.cpp:3131-3381) -/
def exact3 (rd : ℚ → ℚ) (splitter : ℚ) (pa pb pc pd pe : ℚ × ℚ × ℚ) : Res (List ℚ) := do
  let ab := raw4 rd splitter pa pb
  let bc := raw4 rd splitter pb pc
  let cd := raw4 rd splitter pc pd
  let de := raw4 rd splitter pd pe
  let ea := raw4 rd splitter pe pa
  let ac := raw4 rd splitter pa pc
  let bd := raw4 rd splitter pb pd
  let ce := raw4 rd splitter pc pe
  let da := raw4 rd splitter pd pa
  let eb := raw4 rd splitter pe pb
  let abc ← sum24 rd splitter bc pa.2.2 ac (-pb.2.2) ab pc.2.2
  let bcd ← sum24 rd splitter cd pb.2.2 bd (-pc.2.2) bc pd.2.2
  let cde ← sum24 rd splitter de pc.2.2 ce (-pd.2.2) cd pe.2.2
  let dea ← sum24 rd splitter ea pd.2.2 da (-pe.2.2) de pa.2.2
  let eab ← sum24 rd splitter ab pe.2.2 eb (-pa.2.2) ea pb.2.2
  let abd ← sum24 rd splitter bd pa.2.2 da pb.2.2 ab pd.2.2
  let bce ← sum24 rd splitter ce pb.2.2 eb pc.2.2 bc pe.2.2
  let cda ← sum24 rd splitter da pc.2.2 ac pd.2.2 cd pa.2.2
  let deb ← sum24 rd splitter eb pd.2.2 bd pe.2.2 de pb.2.2
  let eac ← sum24 rd splitter ac pe.2.2 ce pa.2.2 ea pc.2.2
  let bcde ← comb96 rd cde bce deb bcd
  let adet ← liftPos rd splitter 192 384 768 1152 bcde pa.1 pa.2.1 pa.2.2
  let cdea ← comb96 rd dea cda eac cde
  let bdet ← liftPos rd splitter 192 384 768 1152 cdea pb.1 pb.2.1 pb.2.2
  let deab ← comb96 rd eab deb abd dea
  let cdet ← liftPos rd splitter 192 384 768 1152 deab pc.1 pc.2.1 pc.2.2
  let eabc ← comb96 rd abc eac bce eab
  let ddet ← liftPos rd splitter 192 384 768 1152 eabc pd.1 pd.2.1 pd.2.2
  let abcd ← comb96 rd bcd abd cda abc
  let edet ← liftPos rd splitter 192 384 768 1152 abcd pe.1 pe.2.1 pe.2.2
  let abdet ← fesTo rd 2304 adet bdet
  let cddet ← fesTo rd 2304 cdet ddet
  let cdedet ← fesTo rd 3456 cddet edet
  fesTo rd 5760 abdet cdedet

/-- `alift`, ...: the squared length. (src/utils/Predicates.cpp:3995-3998, 3899) -/
def liftFl (rd : ℚ → ℚ) (x y z : ℚ) : ℚ := rd (rd (rd (x * x) + rd (y * y)) + rd (z * z))

/-- The product of a vector and its tail. (src/utils/Predicates.cpp:3911, 3913, 3915, 3917) -/
def liftTail (rd : ℚ → ℚ) (a : Side3) : ℚ := rd (rd (rd (a.x * a.xt) + rd (a.y * a.yt)) + rd (a.z * a.zt))

/-- `cda`, `dab`: the sum of three products. (src/utils/Predicates.cpp:3992-3993, 3900-3901) -/
def volP (rd : ℚ → ℚ) (z1 c1 z2 c2 z3 c3 : ℚ) : ℚ := rd (rd (rd (z1 * c1) + rd (z2 * c2)) + rd (z3 * c3))

/-- `abc`, `bcd`: the sum of three products, the second one negative. (src/utils/Predicates.cpp:3990-3991, 3903-3904) -/
def volM (rd : ℚ → ℚ) (z1 c1 z2 c2 z3 c3 : ℚ) : ℚ := rd (rd (rd (z1 * c1) - rd (z2 * c2)) + rd (z3 * c3))

/-- `abeps`, ...: the terms of first order of `ab`, .... (src/utils/Predicates.cpp:3887-3898) -/
def epsFl (rd : ℚ → ℚ) (a b : Side3) : ℚ :=
  rd (rd (rd (a.x * b.yt) + rd (b.y * a.xt)) - rd (rd (a.y * b.xt) + rd (b.x * a.yt)))

/-- The number that the third stage adds to the estimate. (src/utils/Predicates.cpp:3887-3918) -/
def corrSphere (rd : ℚ → ℚ) (a b c d : Side3) (ab3 bc3 cd3 da3 ac3 bd3 : ℚ) : ℚ :=
  let abeps := epsFl rd a b
  let bceps := epsFl rd b c
  let cdeps := epsFl rd c d
  let daeps := epsFl rd d a
  let aceps := epsFl rd a c
  let bdeps := epsFl rd b d
  let tb := rd (liftFl rd b.x b.y b.z *
    rd (volP rd c.z daeps d.z aceps a.z cdeps + volP rd c.zt da3 d.zt ac3 a.zt cd3))
  let td := rd (liftFl rd d.x d.y d.z *
    rd (volM rd a.z bceps b.z aceps c.z abeps + volM rd a.zt bc3 b.zt ac3 c.zt ab3))
  let ta := rd (liftFl rd a.x a.y a.z *
    rd (volM rd b.z cdeps c.z bdeps d.z bceps + volM rd b.zt cd3 c.zt bd3 d.zt bc3))
  let tc := rd (liftFl rd c.x c.y c.z *
    rd (volP rd d.z abeps a.z bdeps b.z daeps + volP rd d.zt ab3 a.zt bd3 b.zt da3))
  let ub := rd (liftTail rd b * volP rd c.z da3 d.z ac3 a.z cd3)
  let ud := rd (liftTail rd d * volM rd a.z bc3 b.z ac3 c.z ab3)
  let ua := rd (liftTail rd a * volM rd b.z cd3 c.z bd3 d.z bc3)
  let uc := rd (liftTail rd c * volP rd d.z ab3 a.z bd3 b.z da3)
  rd (rd (rd (tb + td) - rd (ta + tc)) + rd (2 * rd (rd (ub + ud) - rd (ua + uc))))

/-- `fin1`. (src/utils/Predicates.cpp:3763-3859) -/
def fin3 (rd : ℚ → ℚ) (splitter : ℚ) (a b c d : Side3) : Res (List ℚ) := do
  let ab := cross4 rd splitter a.toSide b.toSide
  let bc := cross4 rd splitter b.toSide c.toSide
  let cd := cross4 rd splitter c.toSide d.toSide
  let da := cross4 rd splitter d.toSide a.toSide
  let ac := cross4 rd splitter a.toSide c.toSide
  let bd := cross4 rd splitter b.toSide d.toSide
  let temp24 ← sum24 rd splitter cd b.z bd (-c.z) bc d.z
  let adet ← liftNeg rd splitter 48 96 192 288 temp24 a.x a.y a.z
  let temp24 ← sum24 rd splitter da c.z ac d.z cd a.z
  let bdet ← liftPos rd splitter 48 96 192 288 temp24 b.x b.y b.z
  let temp24 ← sum24 rd splitter ab d.z bd a.z da b.z
  let cdet ← liftNeg rd splitter 48 96 192 288 temp24 c.x c.y c.z
  let temp24 ← sum24 rd splitter bc a.z ac (-b.z) ab c.z
  let ddet ← liftPos rd splitter 48 96 192 288 temp24 d.x d.y d.z
  let abdet ← fesTo rd 576 adet bdet
  let cddet ← fesTo rd 576 cdet ddet
  fesTo rd 1152 abdet cddet

/-- `insphere_adapt` of the space. (src/utils/Predicates.cpp:3711-3924) -/
def insphereAdapt3 (rd : ℚ → ℚ) (k : Consts) (pa pb pc pd pe : ℚ × ℚ × ℚ) (permanent : ℚ) : Res ℚ := do
  let a := side3 rd pa pe
  let b := side3 rd pb pe
  let c := side3 rd pc pe
  let d := side3 rd pd pe
  let fin1 ← fin3 rd k.splitter a b c d
  let det := estimate rd fin1
  let errbound := rd (k.isperrboundB * permanent)
  if errbound ≤ det ∨ errbound ≤ -det then return det
  else if a.exact ∧ b.exact ∧ c.exact ∧ d.exact then return det
  else
    let errbound := rd (rd (k.isperrboundC * permanent) + rd (k.resulterrbound * |det|))
    let det := rd (det + corrSphere rd a b c d
      (top (cross4 rd k.splitter a.toSide b.toSide)) (top (cross4 rd k.splitter b.toSide c.toSide)) (top (cross4 rd k.splitter c.toSide d.toSide))
      (top (cross4 rd k.splitter d.toSide a.toSide)) (top (cross4 rd k.splitter a.toSide c.toSide)) (top (cross4 rd k.splitter b.toSide d.toSide)))
    if errbound ≤ det ∨ errbound ≤ -det then return det
    else do
      let deter ← exact3 rd k.splitter pa pb pc pd pe
      return top deter

/-- One summand of `permanent`. (src/utils/Predicates.cpp:4018-4021) -/
def permTerm (rd : ℚ → ℚ) (u1 v1 z1 u2 v2 z2 u3 v3 z3 l : ℚ) : ℚ :=
  rd (rd (rd (rd (rd (|u1| + |v1|) * |z1|) + rd (rd (|u2| + |v2|) * |z2|)) + rd (rd (|u3| + |v3|) * |z3|)) * l)

/-- `insphere` of the space. (src/utils/Predicates.cpp:3941-4040) -/
def insphere3 (rd : ℚ → ℚ) (k : Consts) (pa pb pc pd pe : ℚ × ℚ × ℚ) : Res ℚ :=
  let aex := rd (pa.1 - pe.1)
  let bex := rd (pb.1 - pe.1)
  let cex := rd (pc.1 - pe.1)
  let dex := rd (pd.1 - pe.1)
  let aey := rd (pa.2.1 - pe.2.1)
  let bey := rd (pb.2.1 - pe.2.1)
  let cey := rd (pc.2.1 - pe.2.1)
  let dey := rd (pd.2.1 - pe.2.1)
  let aez := rd (pa.2.2 - pe.2.2)
  let bez := rd (pb.2.2 - pe.2.2)
  let cez := rd (pc.2.2 - pe.2.2)
  let dez := rd (pd.2.2 - pe.2.2)
  let aexbey := rd (aex * bey)
  let bexaey := rd (bex * aey)
  let ab := rd (aexbey - bexaey)
  let bexcey := rd (bex * cey)
  let cexbey := rd (cex * bey)
  let bc := rd (bexcey - cexbey)
  let cexdey := rd (cex * dey)
  let dexcey := rd (dex * cey)
  let cd := rd (cexdey - dexcey)
  let dexaey := rd (dex * aey)
  let aexdey := rd (aex * dey)
  let da := rd (dexaey - aexdey)
  let aexcey := rd (aex * cey)
  let cexaey := rd (cex * aey)
  let ac := rd (aexcey - cexaey)
  let bexdey := rd (bex * dey)
  let dexbey := rd (dex * bey)
  let bd := rd (bexdey - dexbey)
  let abc := volM rd aez bc bez ac cez ab
  let bcd := volM rd bez cd cez bd dez bc
  let cda := volP rd cez da dez ac aez cd
  let dab := volP rd dez ab aez bd bez da
  let alift := liftFl rd aex aey aez
  let blift := liftFl rd bex bey bez
  let clift := liftFl rd cex cey cez
  let dlift := liftFl rd dex dey dez
  let det := rd (rd (rd (dlift * abc) - rd (clift * dab)) + rd (rd (blift * cda) - rd (alift * bcd)))
  let permanent := rd (rd (rd (
      permTerm rd cexdey dexcey bez dexbey bexdey cez bexcey cexbey dez alift +
      permTerm rd dexaey aexdey cez aexcey cexaey dez cexdey dexcey aez blift) +
      permTerm rd aexbey bexaey dez bexdey dexbey aez dexaey aexdey bez clift) +
      permTerm rd bexcey cexbey aez cexaey aexcey bez aexbey bexaey cez dlift)
  let errbound := rd (k.isperrboundA * permanent)
  if errbound < det ∨ errbound < -det then .done det else insphereAdapt3 rd k pa pb pc pd pe permanent

end FPM
end Verif
