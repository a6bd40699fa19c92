import Verif.Model.DC
import Verif.Model.GeomCore
import Verif.Model.Misc

/-!
# The divide-and-conquer triangulator with its splitters and its intersection test
-/
namespace Verif
namespace Part
variable {D : Nat} {K : Type*} [Field K] [LinearOrder K]

/-- The splitters that can be given to the triangulator. (include/Partitioner.h:224-318) -/
inductive Splitter where
  | dWay
  | oneDim (k : Nat)
  | cycle
  | extend

/-- The virtual function `partition(stats, ids, points, provenance, ignoreInfinite)`. The provenance is
represented by its length. (include/Partitioner.h:94-112) -/
def Splitter.run (sp : Splitter) (stats : Stats D K) (pts : Nat → Vec D K) (ids : List Nat) (len : Nat)
    (ignoreInf : Bool) : Option (List (Partition D K)) :=
  match sp with
  | .dWay => Part.dWay stats pts ids ignoreInf
  | .oneDim k => Part.oneDim k stats pts ids ignoreInf
  | .cycle => Part.cycle len stats pts ids ignoreInf
  | .extend => Part.extend stats pts ids ignoreInf

/-- Possible results of `partition(ids, points, provenance)`, which computes the statistics without the
infinite points and splits with them. The set `S` is traversed in some order `ids` by the splitter, and
distributed over threads in some way (`work`) by `getPointStats`. (include/Partitioner.h:207-215) -/
def Splitter.Parts (sp : Splitter) (big tiny : K) (pts : Nat → Vec D K) (len : Nat) (S : Finset Nat)
    (ps : List (Partition D K)) : Prop :=
  ∃ (ids : List Nat) (work : List (List Nat)), ids.Nodup ∧ (∀ i, i ∈ ids ↔ i ∈ S) ∧ work.flatten.Perm ids ∧
    sp.run (getPointStats big tiny pts work true) pts ids len false = some ps

/-- `getRecursionDepth(threads)`: `logN(threads, pow(2, D))` for the d-way splitter, `log2(threads)` for the
others. (include/Partitioner.h:234-239, 261-266, 286-291, 308-313) -/
def Splitter.recursionDepth (D : Nat) (sp : Splitter) (threads : BitVec 32) (fuel : Nat) : Res Nat :=
  match sp with
  | .dWay => Misc.logN fuel (threads.setWidth 64) (BitVec.ofNat 64 (2 ^ D))
  | _ => .done (Misc.log2W (threads.setWidth 64))

end Part

namespace DC
variable {D : Nat} {K : Type} [Field K] [LinearOrder K]

/-- The triangulator's components: a splitter, and the test `bounds.intersects(circumsphere)`; `cs` computes
the circumsphere of a simplex from its vertices. (src/lib/DCTriangulator.cpp:96-180, 498-608) -/
def params (hash : Nat → BitVec 32) (depth cutoff : Nat) (parEdge : Bool) (base : Finset Nat → Tri → Prop)
    (sp : Part.Splitter) (big tiny : K) (pts : Nat → Vec D K) (cs : List Nat → Sphere D K) : Params D K where
  hash := hash
  depth := depth
  cutoff := cutoff
  parEdge := parEdge
  base := base
  split := fun len S ps => sp.Parts big tiny pts len S ps
  inter := fun b vs => b.intersects (cs vs)

/-- Coordinates of the infinite point `i`. (src/lib/DCTriangulator.cpp:76-82,
include/LoadBalancedDCTriangulator.tpp:86-92) -/
def infCoords (safety : K) (stats : Part.Stats D K) (i : Nat) : Vec D K := fun d =>
  (if i.testBit d then 1 else -1) * 2 * safety * (stats.max d - stats.min d)

/-- The points after the constructor of `DCTriangulator` with `addInfiniteVertices`; `work` is the distribution
of the ids `1 .. finite_size - 1` over the threads. (src/lib/DCTriangulator.cpp:69-86) -/
def ctorPoints (safety big tiny : K) (pts : Nat → Vec D K) (work : List (List Nat)) : Nat → Vec D K :=
  let stats := Part.getPointStats big tiny pts work true
  (List.range (2 ^ D)).foldl (fun ps i => Function.update ps (Part.cINF D ||| i) (infCoords safety stats i)) pts

/-- Recursive calls of `_triangulate`: a call for `S` with provenance of length `len` may directly call itself
with these arguments. (src/lib/DCTriangulator.cpp:511, 530-542, 584-589) -/
inductive Calls (A : Params D K) : Nat × Finset Nat → Nat × Finset Nat → Prop
  | part (len : Nat) (S : Finset Nat) (hc : len - 1 < A.depth ∧ A.cutoff < S.card)
      (ps : List (Part.Partition D K)) (hps : A.split len S ps) (p : Part.Partition D K) (hp : p ∈ ps) :
      Calls A (len, S) (len + 1, p.points)
  | edge (len : Nat) (S V : Finset Nat) (hc : len - 1 < A.depth ∧ A.cutoff < S.card) (hpe : A.parEdge = true) :
      Calls A (len, S) (len + 1, V)

/-- `dSimplex<2>::circumsphere`. (include/Geometry.h:597-602, 1033-1037) -/
def cs2 (sqrt : K → K) (pts : Nat → Vec 2 K) (vs : List Nat) : Sphere 2 K :=
  Geom.circumsphere2 sqrt (pts (vs.getD 0 0)) (pts (vs.getD 1 0)) (pts (vs.getD 2 0))

/-- `dSimplex<3>::circumsphere`. (include/Geometry.h:597-602, 1090-1094) -/
def cs3 (sqrt : K → K) (pts : Nat → Vec 3 K) (vs : List Nat) : Sphere 3 K :=
  Geom.circumsphere3 sqrt (pts (vs.getD 0 0)) (pts (vs.getD 1 0)) (pts (vs.getD 2 0)) (pts (vs.getD 3 0))

end DC
end Verif
