import Verif.Model.ExactTests

/-!
# Exact tests with differences

`/repo/src/utils/Predicates.cpp` lines 328-351, 1228-1266, 1524-1677, 2472-2561, 3383-3709: `Two_Two_Product` and the functions
`orient_slow` and `insphere_slow` of the plane and of space. They compute with differences of coordinates, each as a rounded difference
and its tail, and have no filter.
-/
namespace Verif
namespace FP

/-- `Two_Two_Product`: `x0`, ..., `x7`. The halves of the factors are computed once and used for two products; `twoProduct` computes the
same halves for every product. (src/utils/Predicates.cpp:328-351) -/
def twoTwoProduct (p : Nat) (splitter a1 a0 b1 b0 : ℚ) : List ℚ :=
  let p00 := twoProduct p splitter a0 b0
  let p10 := twoProduct p splitter a1 b0
  let s1 := twoSum p p00.1 p10.2
  let s2 := fastTwoSum p p10.1 s1.1
  let p01 := twoProduct p splitter a0 b1
  let t1 := twoSum p s1.2 p01.2
  let t2 := twoSum p s2.2 t1.1
  let t3 := twoSum p s2.1 t2.1
  let p11 := twoProduct p splitter a1 b1
  let n := twoSum p p01.1 p11.2
  let u1 := twoSum p t2.2 n.2
  let u2 := twoSum p t3.2 u1.1
  let u3 := twoSum p t3.1 u2.1
  let k := twoSum p p11.1 n.1
  let v1 := twoSum p u2.2 k.2
  let v2 := twoSum p u3.2 v1.1
  let v3 := twoSum p u3.1 v2.1
  let w1 := twoSum p v2.2 k.1
  let w2 := twoSum p v3.2 w1.1
  let w3 := twoSum p v3.1 w2.1
  [p00.2, t1.2, u1.2, v1.2, w1.2, w2.2, w3.2, w3.1]

/-- `axby` and `bxay`, or the like, and their sum: a coordinate is a pair of a rounded difference and its tail.
(src/utils/Predicates.cpp:1252-1263, 1561-1593, 1620, 1647, 2508-2539, 2545, 2551, 3441-3506) -/
def slowCross (p : Nat) (splitter : ℚ) (ax ay bx bY : ℚ × ℚ) : List ℚ :=
  let axby := twoTwoProduct p splitter ax.1 ax.2 bY.1 bY.2
  let bxay := twoTwoProduct p splitter bx.1 bx.2 (-ay.1) (-ay.2)
  fes p axby bxay

/-- `orient_slow` of the plane, all components. (src/utils/Predicates.cpp:1228-1266) -/
def slowOrient2 (p : Nat) (splitter : ℚ) (pa pb pc : ℚ × ℚ) : List ℚ :=
  let acx := twoDiff p pa.1 pc.1
  let acy := twoDiff p pa.2 pc.2
  let bcx := twoDiff p pb.1 pc.1
  let bcy := twoDiff p pb.2 pc.2
  slowCross p splitter acx acy bcx bcy

/-- `x2`, `y2`, `z2`: an expansion times the square of a coordinate. (src/utils/Predicates.cpp:1595-1604, 3524-3533) -/
def slowSquare (p : Nat) (splitter : ℚ) (e : List ℚ) (x : ℚ × ℚ) : List ℚ :=
  let detx := scale p splitter e x.1
  let detxx := scale p splitter detx x.1
  let detxt := scale p splitter e x.2
  let detxxt := (scale p splitter detxt x.1).map fun y => rnd p (y * 2)
  let detxtxt := scale p splitter detxt x.2
  let x1 := fes p detxx detxxt
  fes p x1 detxtxt

/-- `adet`, `bdet`, `cdet`. (src/utils/Predicates.cpp:1595-1617, 1622-1644, 1649-1671) -/
def slowLift2 (p : Nat) (splitter : ℚ) (e : List ℚ) (x y : ℚ × ℚ) : List ℚ :=
  fes p (slowSquare p splitter e x) (slowSquare p splitter e y)

/-- `insphere_slow` of the plane, all components. (src/utils/Predicates.cpp:1524-1677) -/
def slowInsphere2 (p : Nat) (splitter : ℚ) (pa pb pc pd : ℚ × ℚ) : List ℚ :=
  let adx := twoDiff p pa.1 pd.1
  let ady := twoDiff p pa.2 pd.2
  let bdx := twoDiff p pb.1 pd.1
  let bdy := twoDiff p pb.2 pd.2
  let cdx := twoDiff p pc.1 pd.1
  let cdy := twoDiff p pc.2 pd.2
  let adet := slowLift2 p splitter (slowCross p splitter bdx bdy cdx cdy) adx ady
  let bdet := slowLift2 p splitter (slowCross p splitter cdx cdy adx ady) bdx bdy
  let cdet := slowLift2 p splitter (slowCross p splitter adx ady bdx bdy) cdx cdy
  let abdet := fes p adet bdet
  fes p abdet cdet

/-- An expansion times a coordinate. (src/utils/Predicates.cpp:2540-2543, 3508-3511) -/
def slowTimes (p : Nat) (splitter : ℚ) (e : List ℚ) (z : ℚ × ℚ) : List ℚ :=
  fes p (scale p splitter e z.1) (scale p splitter e z.2)

/-- `orient_slow` of space, all components. (src/utils/Predicates.cpp:2472-2561) -/
def slowOrient3 (p : Nat) (splitter : ℚ) (pa pb pc pd : ℚ × ℚ × ℚ) : List ℚ :=
  let adx := twoDiff p pa.1 pd.1
  let ady := twoDiff p pa.2.1 pd.2.1
  let adz := twoDiff p pa.2.2 pd.2.2
  let bdx := twoDiff p pb.1 pd.1
  let bdy := twoDiff p pb.2.1 pd.2.1
  let bdz := twoDiff p pb.2.2 pd.2.2
  let cdx := twoDiff p pc.1 pd.1
  let cdy := twoDiff p pc.2.1 pd.2.1
  let cdz := twoDiff p pc.2.2 pd.2.2
  let adet := slowTimes p splitter (slowCross p splitter bdx bdy cdx cdy) adz
  let bdet := slowTimes p splitter (slowCross p splitter cdx cdy adx ady) bdz
  let cdet := slowTimes p splitter (slowCross p splitter adx ady bdx bdy) cdz
  let abdet := fes p adet bdet
  fes p abdet cdet

/-- A coordinate with the other sign: `-bez` and `-beztail`. (src/utils/Predicates.cpp:3508-3509, 3516-3517) -/
def negPair (z : ℚ × ℚ) : ℚ × ℚ := (-z.1, -z.2)

/-- `temp192`. (src/utils/Predicates.cpp:3508-3523) -/
def slowMinor (p : Nat) (splitter : ℚ) (e : List ℚ) (x : ℚ × ℚ) (f : List ℚ) (y : ℚ × ℚ) (g : List ℚ) (z : ℚ × ℚ) : List ℚ :=
  let temp64a := slowTimes p splitter e x
  let temp64b := slowTimes p splitter f y
  let temp64c := slowTimes p splitter g z
  let temp128 := fes p temp64a temp64b
  fes p temp64c temp128

/-- `adet`, `bdet`, `cdet`, `ddet` from `temp192`. (src/utils/Predicates.cpp:3524-3555) -/
def slowLift3 (p : Nat) (splitter : ℚ) (e : List ℚ) (x y z : ℚ × ℚ) : List ℚ :=
  let x2 := slowSquare p splitter e x
  let y2 := slowSquare p splitter e y
  let z2 := slowSquare p splitter e z
  let detxy := fes p x2 y2
  fes p z2 detxy

/-- `insphere_slow` of space, all components. (src/utils/Predicates.cpp:3383-3709) -/
def slowInsphere3 (p : Nat) (splitter : ℚ) (pa pb pc pd pe : ℚ × ℚ × ℚ) : List ℚ :=
  let aex := twoDiff p pa.1 pe.1
  let aey := twoDiff p pa.2.1 pe.2.1
  let aez := twoDiff p pa.2.2 pe.2.2
  let bex := twoDiff p pb.1 pe.1
  let bey := twoDiff p pb.2.1 pe.2.1
  let bez := twoDiff p pb.2.2 pe.2.2
  let cex := twoDiff p pc.1 pe.1
  let cey := twoDiff p pc.2.1 pe.2.1
  let cez := twoDiff p pc.2.2 pe.2.2
  let dex := twoDiff p pd.1 pe.1
  let dey := twoDiff p pd.2.1 pe.2.1
  let dez := twoDiff p pd.2.2 pe.2.2
  let ab := slowCross p splitter aex aey bex bey
  let bc := slowCross p splitter bex bey cex cey
  let cd := slowCross p splitter cex cey dex dey
  let da := slowCross p splitter dex dey aex aey
  let ac := slowCross p splitter aex aey cex cey
  let bd := slowCross p splitter bex bey dex dey
  let adet := slowLift3 p splitter (slowMinor p splitter cd (negPair bez) bd cez bc (negPair dez)) aex aey aez
  let bdet := slowLift3 p splitter (slowMinor p splitter da cez ac dez cd aez) bex bey bez
  let cdet := slowLift3 p splitter (slowMinor p splitter ab (negPair dez) bd (negPair aez) da (negPair bez)) cex cey cez
  let ddet := slowLift3 p splitter (slowMinor p splitter bc aez ac (negPair bez) ab cez) dex dey dez
  let abdet := fes p adet bdet
  let cddet := fes p cdet ddet
  fes p abdet cddet

end FP
end Verif
