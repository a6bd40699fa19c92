import Verif.Model.Insphere2

/-!
# Exact tests without filters

`/repo/src/utils/Predicates.cpp` lines 1188-1227, 1426-1523, 2396-2473: the functions `orient_exact` of the plane and of space and
`insphere_exact` of the plane. They compute with the coordinates themselves and not with differences. `insphere_exact` of space is
`exact3`.
-/
namespace Verif
namespace FP

/-- `orient_exact` of the plane, all components. (src/utils/Predicates.cpp:1188-1227) -/
def exactOrient2 (p : Nat) (splitter : ℚ) (pa pb pc : ℚ × ℚ) : List ℚ :=
  let aterms := diff4 p splitter pa.1 pb.2 pa.1 pc.2
  let bterms := diff4 p splitter pb.1 pc.2 pb.1 pa.2
  let cterms := diff4 p splitter pc.1 pa.2 pc.1 pb.2
  fes p (fes p aterms bterms) cterms

/-- `ab`, `bc`, `cd`, `da`, `ac`, `bd`. (src/utils/Predicates.cpp:1455-1477, 2424-2446) -/
def raw2 (p : Nat) (splitter : ℚ) (a b : ℚ × ℚ) : List ℚ := diff4 p splitter a.1 b.2 b.1 a.2

/-- The loop that negates an expansion. (src/utils/Predicates.cpp:1483-1486, 2452-2455) -/
def negate (e : List ℚ) : List ℚ := e.map fun x => -x

/-- `bcd`, `cda`, `dab`, `abc`. (src/utils/Predicates.cpp:1479-1490, 2448-2459) -/
structure Minors where
  bcd : List ℚ
  cda : List ℚ
  dab : List ℚ
  abc : List ℚ

/-- The sums of three products; both functions begin with them. (src/utils/Predicates.cpp:1455-1490, 2424-2459) -/
def minors (p : Nat) (splitter : ℚ) (pa pb pc pd : ℚ × ℚ) : Minors :=
  let ab := raw2 p splitter pa pb
  let bc := raw2 p splitter pb pc
  let cd := raw2 p splitter pc pd
  let da := raw2 p splitter pd pa
  let ac := raw2 p splitter pa pc
  let bd := raw2 p splitter pb pd
  { cda := fes p (fes p cd da) ac
    dab := fes p (fes p da ab) bd
    abc := fes p (fes p ab bc) (negate ac)
    bcd := fes p (fes p bc cd) (negate bd) }

/-- `orient_exact` of space, all components. (src/utils/Predicates.cpp:2396-2470) -/
def exactOrient3 (p : Nat) (splitter : ℚ) (pa pb pc pd : ℚ × ℚ × ℚ) : List ℚ :=
  let m := minors p splitter (pa.1, pa.2.1) (pb.1, pb.2.1) (pc.1, pc.2.1) (pd.1, pd.2.1)
  let adet := scale p splitter m.bcd pa.2.2
  let bdet := scale p splitter m.cda (-pb.2.2)
  let cdet := scale p splitter m.dab pc.2.2
  let ddet := scale p splitter m.abc (-pd.2.2)
  fes p (fes p adet bdet) (fes p cdet ddet)

/-- `adet`, `bdet`, `cdet`, `ddet`: `s` is 1 or -1. (src/utils/Predicates.cpp:1492-1514) -/
def exactLift (p : Nat) (splitter : ℚ) (e : List ℚ) (s : ℚ) (a : ℚ × ℚ) : List ℚ :=
  fes p (scale p splitter (scale p splitter e a.1) (s * a.1)) (scale p splitter (scale p splitter e a.2) (s * a.2))

/-- `insphere_exact` of the plane, all components. (src/utils/Predicates.cpp:1426-1521) -/
def exactInsphere2 (p : Nat) (splitter : ℚ) (pa pb pc pd : ℚ × ℚ) : List ℚ :=
  let m := minors p splitter pa pb pc pd
  let adet := exactLift p splitter m.bcd 1 pa
  let bdet := exactLift p splitter m.cda (-1) pb
  let cdet := exactLift p splitter m.dab 1 pc
  let ddet := exactLift p splitter m.abc (-1) pd
  fes p (fes p adet bdet) (fes p cdet ddet)

end FP
end Verif
