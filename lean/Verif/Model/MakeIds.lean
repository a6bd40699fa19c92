import Verif.Model.LpSet
import Verif.Model.Simplex

/-!
# Ids of a point container

`/repo/include/utils/MakeIds.h` and `dPoints::operator==` (`/repo/include/Geometry.h`:324-339). Ids are 64-bit numbers; the set
is an `LP_Set<tIdType, true>` (Geometry.h:50).
-/
namespace Verif
namespace PointId

/-- `size()`. (include/datastructures/VectorAdapter2.hxx:90-92) -/
def size (D : Nat) (p : Points) : BitVec 64 := p.finiteSize + nINF D

/-- Ids inserted by the first loop, in order. (include/utils/MakeIds.h:7-8) -/
def finiteIds (p : Points) : List (BitVec 64) := (List.range' 1 (p.finiteSize.toNat - 1)).map fun i => p.offset + BitVec.ofNat 64 i

/-- Ids inserted by the second loop, in order. (include/utils/MakeIds.h:9-12) -/
def infiniteIds (D : Nat) : List (BitVec 64) := (List.range (nINF D).toNat).map fun i => cINF D + BitVec.ofNat 64 i

/-- Inserts ids one after the other. (include/utils/MakeIds.h:7-12) -/
def insertEach (fuel : Nat) : List (BitVec 64) → LpSet → Res LpSet
  | [], s => .done s
  | i :: l, s => (LpSet.insert fuel s i.toNat).bind fun r => insertEach fuel l r.1

/-- `makePointIds`; `a` is the hash multiplier of the new set. (include/utils/MakeIds.h:5-15) -/
def makePointIds (fuel a D : Nat) (p : Points) : Res LpSet :=
  insertEach fuel (finiteIds p ++ infiniteIds D) (LpSet.new true a (size D p).toNat)

/-- `dPoints::operator==` for a set of ids, given by its size and its elements in the order of iteration.
(include/Geometry.h:324-339) -/
def eqIds (D : Nat) (p : Points) (otherSize : Nat) (other : List Nat) : Bool :=
  if (size D p - 1#64).toNat ≠ otherSize then false else other.all fun i => contains D p (BitVec.ofNat 64 i)

end PointId
end Verif
