import Verif.Model.Misc

/-!
# Model of points ids, point containers and simplices

`/repo/include/Geometry.h` lines 195-342 (`dPoint`, `dPoints`) and 420-680 (`dSimplex`), with
`/repo/include/datastructures/VectorAdapter2.hxx`. Ids are 64-bit (`tIdType`, Geometry.h:39), hashes
32-bit (`tHashType`, 38), marks 8-bit (`tMarkType`, 40).
-/
namespace Verif

namespace PointId

/-- `dPoint::cINF`, Geometry.h:227, for dimension `D < 31`. -/
def cINF (D : Nat) : BitVec 64 := ~~~0#64 ^^^ (BitVec.ofNat 64 (2 ^ D) - 1#64)

/-- `dPoint::nINF`, Geometry.h:228. -/
def nINF (D : Nat) : BitVec 64 := ~~~0#64 - cINF D + 1#64

/-- `dPoint::isFinite`, Geometry.h:207-210. -/
def isFinite (D : Nat) (i : BitVec 64) : Bool := !((i &&& cINF D) == cINF D)

/-- `dPoint::infIndex`, Geometry.h:212-215 (assertion disabled). -/
def infIndex (D : Nat) (i : BitVec 64) : BitVec 64 := ~~~(cINF D) &&& i

/-- Size and offset of a `dPoints` container (VectorAdapter2.hxx:18-19, 190-193). -/
structure Points where
  offset : BitVec 64
  finiteSize : BitVec 64

/-- `dPoints::contains`, Geometry.h:309-317. -/
def contains (D : Nat) (p : Points) (i : BitVec 64) : Bool :=
  if isFinite D i then decide (p.offset < i) && decide (i - p.offset < p.finiteSize)
  else decide (infIndex D i < nINF D)

/-- `VectorAdapter2::contains`, VectorAdapter2.hxx:22-28. -/
def containsBase (D : Nat) (p : Points) (i : BitVec 64) : Bool :=
  if isFinite D i then decide (p.offset ≤ i) && decide (i - p.offset < p.finiteSize)
  else decide (infIndex D i < nINF D)

/-- The memory cell accessed by `operator[]` with `NDEBUG` (VectorAdapter2.hxx:30-54): a position in
the vector or in `m_infinites`; `none` if out of bounds. -/
def cell (D : Nat) (p : Points) (i : BitVec 64) : Option (Nat ⊕ Nat) :=
  if isFinite D i then
    if (i - p.offset).toNat < p.finiteSize.toNat then some (.inl (i - p.offset).toNat) else none
  else if (infIndex D i).toNat < (nINF D).toNat then some (.inr (infIndex D i).toNat) else none

end PointId

/-- `_rol(x)`, Geometry.h:657-663, for 32-bit hashes. The right shift by `32 - r` is undefined for
`r = 0`, that is if `x` is divisible by 32. -/
def rol (x : BitVec 32) : Option (BitVec 32) :=
  let r := (x &&& 31#32).toNat
  if r = 0 then none else some ((x <<< r) ||| (x >>> (32 - r)))

/-- Conversion of a vertex id to `tHashType`. (include/Geometry.h:634-663) -/
def toHash (v : Nat) : BitVec 32 := BitVec.ofNat 32 v

/-- `dSimplex`, Geometry.h:666-670. -/
structure Simplex where
  id : Nat
  vs : List Nat
  ns : List Nat
  fp : BitVec 32
  mark : Nat
deriving DecidableEq, Repr

namespace Simplex

/-- `dSimplex::cINF`, Geometry.h:679. -/
def cINF : Nat := 2 ^ 64 - 1

/-- Static `isFinite(id)`, Geometry.h:673-677. -/
def idFinite (i : Nat) : Bool := i != cINF

/-- Loop of `genFingerprint`, Geometry.h:637-640. -/
def xorRol (acc : BitVec 32) : List Nat → Option (BitVec 32)
  | [] => some acc
  | v :: vs => (rol (toHash v)).bind fun r => xorRol (acc ^^^ r) vs

/-- `genFingerprint`, Geometry.h:634-643. -/
def genFingerprint (s : Simplex) : Option Simplex :=
  (xorRol 0#32 s.vs).map fun f => { s with fp := f }

/-- `faceFingerprint(i)`, Geometry.h:650-653. -/
def faceFingerprint (s : Simplex) (i : Nat) : Option (BitVec 32) :=
  (s.vs[i]?).bind fun v => (rol (toHash v)).map fun r => (s.fp ^^^ r) ||| 1#32

/-- `equalVertices`, Geometry.h:455-476. The loop compares all positions (both arrays have the same
length). -/
def equalVertices (s a : Simplex) : Bool :=
  if s.fp ≠ a.fp then false else (s.vs.zip a.vs).all fun p => p.1 == p.2

/-- `operator==`, Geometry.h:433-450. -/
def eqOp (s a : Simplex) : Bool :=
  if !((s.id == cINF) ^^ (a.id == cINF)) then s.id == a.id else equalVertices s a

/-- `equalNeighbors`, Geometry.h:499-503. -/
def equalNeighbors (s a : Simplex) : Bool := s.ns != a.ns

/-- `contains(p)`, Geometry.h:507-517: stops at the first larger vertex. -/
def containsVs (p : Nat) : List Nat → Bool
  | [] => false
  | v :: vs => if v ≤ p then (if p = v then true else containsVs p vs) else false

/-- `contains(p)`. -/
def contains (s : Simplex) (p : Nat) : Bool := containsVs p s.vs

/-- `containsAll`, Geometry.h:530-540, over a container of ids or a membership test given as list. -/
def containsAll (s : Simplex) (ps : List Nat) : Bool := ps.all s.contains

/-- `containsAny`, Geometry.h:542-552. -/
def containsAny (s : Simplex) (ps : List Nat) : Bool := ps.any s.contains

/-- Loop of `countSharedVertices`, Geometry.h:481-492; the indices `i`, `j` are represented by the
remaining parts of the arrays. -/
def shared : List Nat → List Nat → Nat
  | v :: vs, a :: as =>
    (v == a).toNat +
      (if v ≤ a then
        (if a ≤ v then shared vs as else shared vs (a :: as))
       else shared (v :: vs) as)
  | _, _ => 0
termination_by l m => l.length + m.length

/-- `countSharedVertices`. (include/Geometry.h:478-505) -/
def countSharedVertices (s a : Simplex) : Nat := shared s.vs a.vs

/-- `isNeighbor`, Geometry.h:604-612, in dimension `D`. -/
def isNeighbor (D : Nat) (s a : Simplex) : Bool := countSharedVertices s a == D

/-- `isFinite()`, Geometry.h:554-564. -/
def isFinite (D : Nat) (s : Simplex) : Bool :=
  s.vs.all fun v => PointId.isFinite D (BitVec.ofNat 64 v)

/-- `sortVertices`, Geometry.h:630-632. -/
def sortVertices (s : Simplex) : Option Simplex :=
  (Misc.sortWithData s.vs s.ns).map fun r => { s with vs := r.1, ns := r.2 }

end Simplex
end Verif
