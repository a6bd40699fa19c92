import Verif.Model.Box
import Verif.Model.Grid
import Verif.Model.GeomCore
import Verif.Model.Misc
import Verif.Model.Partitioner
import Verif.Model.Res
import Mathlib.Data.Finset.Lattice.Basic
import Mathlib.Data.Finset.Sort
import Mathlib.Data.Rat.Floor

/-!
# Partition trees and the partitioners that build them

`/repo/include/load_balancing/PartitionTree.h`, `OldPartitionerPartitioner.h`, `SimplePartitioner.h`,
`kWaySplitter.h`, `FlatPartitioner.h`, `HyperplaneIntersectionChecker.h` and the partitioners in
`/repo/include/load_balancing/sample_partitioner`.

Id sets are finite sets (C01-C22 are about their implementation). What the partitioners get from a random sample, the
graph partitioner (KaHIP) or linear algebra (Eigen) is a parameter of the model. The monitors are left out.
-/
namespace Verif

/-! ### Intersection checkers -/

/-- `IntersectionChecker`: its bounds and `intersects(sphere, simplex)`, the simplex being given by its vertices.
(include/load_balancing/IntersectionChecker.h:7-18) -/
structure Chk (D : Nat) (K : Type) where
  bounds : Box D K
  meets : Sphere D K → List Nat → Bool

namespace Chk
variable {D : Nat} {K : Type} [Field K] [LinearOrder K]

/-- `BoundsIntersectionChecker`. (include/load_balancing/BoundsIntersectionChecker.h:8-25) -/
def ofBox (b : Box D K) : Chk D K := ⟨b, fun s _ => b.intersects s⟩

/-- `distanceToPlane`. (include/load_balancing/VectorOperations.h:37-40, 52-56) -/
def distanceToPlane (p n : Vec D K) (offset : K) : K := Geom.dot n p - offset

/-- `HyperplaneIntersectionChecker`. (include/load_balancing/HyperplaneIntersectionChecker.h:9-31) -/
def plane (b : Box D K) (n : Vec D K) (offset : K) : Chk D K :=
  ⟨b, fun s _ => decide (0 < distanceToPlane s.center n offset + s.radius)⟩

end Chk

/-! ### Partition trees -/

/-- `PartitionTree`; `chk = none` is a null pointer. (include/load_balancing/PartitionTree.h:13-22) -/
inductive PTree (C : Type) where
  | leaf (chk : Option C) (ids : Finset Nat)
  | node (chk : Option C) (children : List (PTree C))

namespace PTree
variable {C : Type}

/-- `intersectionChecker`. (include/load_balancing/PartitionTree.h:18) -/
def chk : PTree C → Option C
  | leaf c _ => c
  | node c _ => c

/-- Assignment to `intersectionChecker`. (include/load_balancing/PartitionTree.h:18) -/
def setChk (c : Option C) : PTree C → PTree C
  | leaf _ ids => leaf c ids
  | node _ l => node c l

/-- `isLeaf`. (include/load_balancing/PartitionTree.h:69-71) -/
def isLeaf : PTree C → Bool
  | leaf _ _ => true
  | node _ _ => false

mutual
/-- The copy constructor dereferences the pointer to the checker of every node; `none`: a null pointer.
(include/load_balancing/PartitionTree.h:24-27) -/
def copy : PTree C → Option (PTree C)
  | leaf none _ => none
  | leaf (some c) ids => some (leaf (some c) ids)
  | node none _ => none
  | node (some c) l => (copyAll l).map (node (some c))
/-- Copies of the children. (include/load_balancing/PartitionTree.h:25) -/
def copyAll : List (PTree C) → Option (List (PTree C))
  | [] => some []
  | t :: l => match copy t, copyAll l with
    | some t', some l' => some (t' :: l')
    | _, _ => none
end

mutual
/-- Ids of the leaf that `collect` produces. (include/load_balancing/PartitionTree.h:39-51) -/
def collectIds : PTree C → Finset Nat
  | leaf _ ids => ids
  | node _ l => collectAll l
/-- The loop over the children. (include/load_balancing/PartitionTree.h:43-48) -/
def collectAll : List (PTree C) → Finset Nat
  | [] => ∅
  | t :: l => collectIds t ∪ collectAll l
end

/-- `collect`. (include/load_balancing/PartitionTree.h:39-51) -/
def collect (t : PTree C) : PTree C := leaf t.chk t.collectIds

mutual
/-- What the visitor adds to the new container for one child. (include/load_balancing/PartitionTree.h:79-90) -/
def flattenOne : PTree C → List (PTree C)
  | leaf c ids => [leaf c ids]
  | node _ l => flattenContainer l
/-- `flattenContainer`. (include/load_balancing/PartitionTree.h:74-100) -/
def flattenContainer : List (PTree C) → List (PTree C)
  | [] => []
  | t :: l => flattenOne t ++ flattenContainer l
end

/-- `flatten`. (include/load_balancing/PartitionTree.h:53-67) -/
def flatten : PTree C → PTree C
  | leaf c ids => leaf c ids
  | node c l => node c (flattenContainer l)

/-- The loop of `toOldPartitioning`, starting at number `id`; `none`: null pointer.
(include/load_balancing/PartitionTree.h:108-117) -/
def toOldFrom {D : Nat} {K : Type} : Nat → List (PTree (Chk D K)) → Option (List (Part.Partition D K × Chk D K))
  | _, [] => some []
  | id, t :: l => match t.chk with
    | none => none
    | some c => (toOldFrom (id + 1) l).map fun r => (⟨id, t.collectIds, c.bounds⟩, c) :: r

/-- `toOldPartitioning`: the partitioning and the checkers. (include/load_balancing/PartitionTree.h:103-119) -/
def toOld {D : Nat} {K : Type} (l : List (PTree (Chk D K))) : Option (List (Part.Partition D K × Chk D K)) :=
  toOldFrom 0 l

end PTree

/-! ### Partitioners -/
namespace Build
variable {D : Nat} {K : Type} [Field K] [LinearOrder K]

/-- Insertion of all infinite ids, `for (k = cINF; k != 0; ++k)`.
(include/load_balancing/SimplePartitioner.h:35-38 and in all other partitioners) -/
def addInf (D : Nat) (s : Finset Nat) : Finset Nat := (Part.infIds D).foldl (fun s k => insert k s) s

/-- The finite ids that satisfy `c`. (e.g. include/load_balancing/SimplePartitioner.h:23-33) -/
def select (D : Nat) (c : Nat → Bool) (ids : Finset Nat) : Finset Nat :=
  ids.filter fun i => Part.isFinite D i = true ∧ c i = true

/-- Number of characters of `std::to_string(n)`. (include/load_balancing/OldPartitionerPartitioner.h:48) -/
def digits (n : Nat) : Nat := (Nat.repr n).length

/-- `OldPartitionerPartitioner::buildTree`, by recursion on `remainingRecursions`; `split` is the result of
`splitter->partition` for a provenance of the given length, `none` if it accesses invalid memory (C42).
(include/load_balancing/OldPartitionerPartitioner.h:30-66) -/
def old (cutoff : Nat) (split : Nat → Finset Nat → Option (List (Part.Partition D K))) :
    Nat → Box D K → Finset Nat → Nat → Option (PTree (Chk D K))
  | 0, bounds, ids, _ => some (.node (some (.ofBox bounds)) [.leaf (some (.ofBox bounds)) ids])
  | r + 1, bounds, ids, prov => (split prov ids).bind fun ps =>
      (ps.zipIdx.mapM fun p =>
        if cutoff < ids.card then old cutoff split r p.1.bounds p.1.points (prov + digits p.2)
        else some (.leaf (some (.ofBox p.1.bounds)) p.1.points)).map fun l => .node (some (.ofBox bounds)) l

/-- `splitBox`. (include/load_balancing/BoxUtils.h:9-22) -/
def splitBox (b : Box D K) (k : Fin D) (x : K) : Box D K × Box D K :=
  (⟨b.low, Function.update b.high k x⟩, ⟨Function.update b.low k x, b.high⟩)

/-- `SimplePartitioner::partition`; `k0` is dimension 0. (include/load_balancing/SimplePartitioner.h:14-57) -/
def simple (k0 : Fin D) (pts : Nat → Vec D K) (bounds : Box D K) (ids : Finset Nat) : PTree (Chk D K) :=
  let bs := splitBox bounds k0 ((bounds.low k0 + bounds.high k0) / 2)
  .node (some (.ofBox bounds))
    [.leaf (some (.ofBox bs.1)) (addInf D (select D (fun i => bs.1.containsPoint (pts i)) ids)),
     .leaf (some (.ofBox bs.2)) (addInf D (select D (fun i => !bs.1.containsPoint (pts i)) ids))]

/-! #### k-way -/

/-- The loop of `generateSplits`. (include/load_balancing/kWaySplitter.h:41-43) -/
def splitsLoop (D : Nat) (n : Nat) (r : List Nat) : List Nat :=
  (List.range n).foldl (fun r i => r.modify (i % D) (· * 2)) r

/-- `generateSplits`. (include/load_balancing/kWaySplitter.h:36-45) -/
def generateSplits (D : Nat) (numPartitions : Nat) : List Nat :=
  splitsLoop D (Misc.log2W (BitVec.ofNat 64 numPartitions)) (List.replicate D 1)

/-- Bucket of a coordinate: `fl` rounds to `float`. The conversion to `size_t` of a value that is not a number, negative
or too large is undefined. (include/load_balancing/kWaySplitter.h:58-59, 74-78) -/
def bucket [FloorRing K] (fl : K → K) (mn mx : K) (n : Nat) (c : K) : Res Nat :=
  let d := fl (fl mx - fl mn)
  if d = 0 then .ub
  else
    let f : Int := ⌊fl (fl ((c - fl mn) / d) * n)⌋
    if 0 ≤ f ∧ f < 2 ^ 64 then
      let p : Int := (BitVec.ofInt 32 f).toInt
      .done (min (max p 0) ((n : Int) - 1)).toNat
    else .ub

/-- The buckets of all finite ids, in the order of the list. (include/load_balancing/kWaySplitter.h:71-85) -/
def buckets [FloorRing K] (fl : K → K) (mn mx : K) (n : Nat) (c : Nat → K) : List Nat → Res (List (Nat × Nat))
  | [] => .done []
  | i :: l => if Part.isFinite D i then
      (bucket fl mn mx n (c i)).bind fun b => (buckets fl mn mx n c l).bind fun r => .done ((i, b) :: r)
    else buckets fl mn mx n c l

/-- Concatenation of the results for the buckets. (include/load_balancing/kWaySplitter.h:92-97) -/
def concat {α β : Type} (f : α → Res (List β)) : List α → Res (List β)
  | [] => .done []
  | a :: l => (f a).bind fun r => (concat f l).bind fun r' => .done (r ++ r')

/-- `partitionRecursively`, with the remaining entries of `splits`; `it` is the order of the iteration over an id set.
The concurrent insertions into the buckets are replaced by their result (C20).
(include/load_balancing/kWaySplitter.h:49-109) -/
def kwayRec [FloorRing K] (fl : K → K) (big tiny : K) (pts : Nat → Vec D K) (it : Finset Nat → List Nat) :
    List Nat → Nat → Finset Nat → Res (List (PTree (Chk D K)))
  | [], _, ids =>
    let st := Part.getPointStatsSeq big tiny pts (it ids) true
    .done [.leaf (some (.ofBox ⟨st.min, st.max⟩)) (addInf D ids)]
  | n :: sp, depth, ids =>
    if h : depth % D < D then
      let st := Part.getPointStatsSeq big tiny pts (it ids) true
      let dim : Fin D := ⟨depth % D, h⟩
      (buckets (D := D) fl (st.min dim) (st.max dim) n (fun i => pts i dim) (it ids)).bind fun bs =>
        concat (fun b => kwayRec fl big tiny pts it sp (depth + 1) ((bs.filter fun x => x.2 == b).map Prod.fst).toFinset)
          (List.range n)
    else .ub

/-- `KWaySplitter::partition`. (include/load_balancing/kWaySplitter.h:11-26) -/
def kway [FloorRing K] (fl : K → K) (big tiny : K) (pts : Nat → Vec D K) (it : Finset Nat → List Nat)
    (numPartitions : Nat) (bounds : Box D K) (ids : Finset Nat) : Res (PTree (Chk D K)) :=
  (kwayRec fl big tiny pts it (generateSplits D numPartitions) 0 ids).bind fun l =>
    .done (.node (some (.ofBox bounds)) l)

/-! #### Partitioners with a sample -/

/-- `makePartitioning` of the hyperplane bipartitioner; `plane path` is the normal and the offset that come from the
sample at this place of the recursion. `slack` is `1e-6`.
(include/load_balancing/sample_partitioner/HyperplaneBipartitioner.h:46-155) -/
def hyper (slack : K) (pts : Nat → Vec D K) (bounds : Box D K) (plane : List Bool → Vec D K × K) (n : Nat)
    (path : List Bool) (chk : Option (Chk D K)) (ids : Finset Nat) : PTree (Chk D K) :=
  if 1 < n then
    let normal := (plane path).1
    let offset := (plane path).2
    let left := addInf D (ids.filter fun i => 0 < Chk.distanceToPlane (pts i) normal offset)
    let right := addInf D (ids.filter fun i => ¬ 0 < Chk.distanceToPlane (pts i) normal offset)
    .node chk
      [hyper slack pts bounds plane (n / 2) (path ++ [false])
        (some (.plane bounds normal (offset - slack))) left,
       hyper slack pts bounds plane (n / 2) (path ++ [true])
        (some (.plane bounds (fun d => -1 * normal d) (-offset - slack))) right]
  else .leaf chk ids
termination_by n
decreasing_by all_goals omega

/-- `HyperplaneSamplingBipartitioner::partition`.
(include/load_balancing/sample_partitioner/HyperplaneBipartitioner.h:27-34) -/
def hyperplane (slack : K) (pts : Nat → Vec D K) (plane : List Bool → Vec D K × K) (n : Nat) (bounds : Box D K)
    (ids : Finset Nat) : PTree (Chk D K) :=
  hyper slack pts bounds plane n [] (some (.ofBox bounds)) ids

/-- The tree of the three partitioners that assign all points to `n` parts: `part` is the part of an id (nearest
sample point, nearest box or nearest centre) and `mkChk` the checker that the partition maker creates for the ids of
a part. `none`: a part number out of range.
(include/load_balancing/sample_partitioner/NearestSamplePointAssigningSamplePartitioner.h:21-46, 93-112;
BoundsDistancePointAssigningSamplePartitioner.h:41-63, 80-96; CenterDistancePointAssigningSamplePartitioner.h:34-57, 79-94;
BoundsIntersectionChecker.h:30-90, GridIntersectionChecker.h:85-160) -/
def assign (n : Nat) (part : Nat → Nat) (mkChk : Finset Nat → Chk D K) (bounds : Box D K) (ids : Finset Nat) :
    Option (PTree (Chk D K)) :=
  if ∀ i ∈ ids, Part.isFinite D i = true → part i < n then
    some (.node (some (.ofBox bounds)) ((List.range n).map fun j =>
      .leaf (some (mkChk (Checker.partIds D ids part j))) (Checker.partIds D ids part j)))
  else none

/-- Checker of a part by `BoundsIntersectionPartitionMaker`, `it` being the order of the iteration and `u` the
uninitialised box of an empty part. (include/load_balancing/BoundsIntersectionChecker.h:60-87) -/
def mkBounds [FloorRing K] (u : Box D K) (it : Finset Nat → List Nat) (pts : Nat → Vec D K) (F : Finset Nat) : Chk D K :=
  .ofBox (Checker.partBounds u (((it F).filter (Part.isFinite D)).map pts))

/-- `makePartitioning` of the nearest sample point bipartitioner: `part path` is the assignment of the sampling at this
place of the recursion. The checker of the result is not set in the recursive case.
(include/load_balancing/sample_partitioner/NearestSamplePointAssigningSampleBipartitioner.h:44-92) -/
def bipart (cutoff : Nat) (part : List Bool → Nat → Bool) (mkChk : Finset Nat → Chk D K) (n : Nat) (path : List Bool)
    (bounds : Box D K) (ids : Finset Nat) : PTree (Chk D K) :=
  if 1 < n ∧ cutoff < ids.card then
    let left := Checker.partIds D ids (fun i => (part path i).toNat) 0
    let right := Checker.partIds D ids (fun i => (part path i).toNat) 1
    .node none
      [(bipart cutoff part mkChk (n / 2) (path ++ [false]) (mkChk left).bounds left).setChk (some (mkChk left)),
       (bipart cutoff part mkChk (n / 2) (path ++ [true]) (mkChk right).bounds right).setChk (some (mkChk right))]
  else .leaf (some (.ofBox bounds)) ids
termination_by n
decreasing_by all_goals omega

/-- `buildTreeRecursively` of the box estimating partitioner; `cut path bounds` is the result of
`estimateBoundingBoxes`: dimension and position of the split.
(include/load_balancing/sample_partitioner/BinaryBoxEstimatingSamplePartitioner.h:69-90, 120-149) -/
def binary (cutoff : Nat) (pts : Nat → Vec D K) (cut : List Bool → Box D K → Fin D × K) :
    Nat → List Bool → Box D K → Finset Nat → PTree (Chk D K)
  | 0, _, bounds, ids => .leaf (some (.ofBox bounds)) ids
  | r + 1, path, bounds, ids =>
    if cutoff ≤ ids.card then
      let bs := splitBox bounds (cut path bounds).1 (cut path bounds).2
      .node (some (.ofBox bounds))
        [binary cutoff pts cut r (path ++ [false]) bs.1
          (addInf D (select D (fun i => bs.1.containsPoint (pts i)) ids)),
         binary cutoff pts cut r (path ++ [true]) bs.2
          (addInf D (select D (fun i => !bs.1.containsPoint (pts i)) ids))]
    else .leaf (some (.ofBox bounds)) ids

end Build
end Verif
