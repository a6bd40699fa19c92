import Verif.Model.PTree

/-!
# Assignment of points to the parts of a sample

`/repo/include/load_balancing/BoxUtils.h`, `VectorOperations.h` and
`/repo/include/load_balancing/sample_partitioner/CenterDistancePointAssigningSamplePartitioner.h`,
`BoundsDistancePointAssigningSamplePartitioner.h`, `NearestSamplePointAssigningSamplePartitioner.h`.

Exact arithmetic over an ordered field. A sample is a list of pairs of the part (`mSampling.partition[i]`) and the
position (`mSampling.points[i]`) of its points.
-/
namespace Verif

namespace Vecs
variable {D : Nat} {K : Type} [Field K] [LinearOrder K]

/-- `operator*(vector, factor)`. (include/load_balancing/VectorOperations.h:6-18) -/
def scale (v : Vec D K) (a : K) : Vec D K := fun d => v d * a

/-- `operator+`. (include/load_balancing/VectorOperations.h:20-25) -/
def add (v w : Vec D K) : Vec D K := fun d => v d + w d

/-- `operator-`. (include/load_balancing/VectorOperations.h:27-35) -/
def sub (v w : Vec D K) : Vec D K := add v (scale w (-1))

/-- `lenSquared`. (include/load_balancing/VectorOperations.h:37-45) -/
def lenSq (v : Vec D K) : K := Geom.dot v v

/-- `std::min_element` with the comparison `lt`, as a position: `i` is the position of the head of the list, `best` the
position of the best element `b` up to here. (include/load_balancing/sample_partitioner/CenterDistancePointAssigningSamplePartitioner.h:83-92) -/
def minLoop {α : Type} (lt : α → α → Bool) : Nat → Nat → α → List α → Nat
  | _, best, _, [] => best
  | i, best, b, a :: l => if lt a b then minLoop lt (i + 1) i a l else minLoop lt (i + 1) best b l

/-- `std::distance(begin, std::min_element(begin, end, lt))`; 0 for an empty range.
(include/load_balancing/sample_partitioner/CenterDistancePointAssigningSamplePartitioner.h:83-92) -/
def minElement {α : Type} (lt : α → α → Bool) : List α → Nat
  | [] => 0
  | a :: l => minLoop lt 1 0 a l

end Vecs

namespace Box
open Vecs
variable {D : Nat} {K : Type} [Field K] [LinearOrder K]

/-- `vecToLowerQuadrant`. (include/load_balancing/BoxUtils.h:64-70) -/
def vecToLowerQuadrant (v : Vec D K) : Vec D K := fun d => max (v d) 0

/-- `vecToCenteredBox`. (include/load_balancing/BoxUtils.h:72-78) -/
def vecToCenteredBox (v high : Vec D K) : Vec D K := vecToLowerQuadrant (Vecs.sub (fun d => |v d|) high)

/-- `(box.high + box.low) * 0.5`. (include/load_balancing/BoxUtils.h:82, 106) -/
def center (b : Box D K) : Vec D K := scale (add b.high b.low) (1 / 2)

/-- `vecToBox`. (include/load_balancing/BoxUtils.h:80-84) -/
def vecToBox (v : Vec D K) (b : Box D K) : Vec D K := vecToCenteredBox (Vecs.sub v b.center) (Vecs.sub b.high b.center)

/-- `vecToLowerQuadrantBoundary`: `std::max_element` is the first largest element.
(include/load_balancing/BoxUtils.h:86-94) -/
def vecToLowerQuadrantBoundary (v : Vec D K) : Vec D K :=
  let r := vecToLowerQuadrant v
  if (List.finRange D).all fun d => decide (r d = 0) then
    let m := minElement (fun a b => decide (v b < v a)) (List.finRange D)
    fun d => if d.val = m then v d else r d
  else r

/-- `vecToCenteredBoxBoundary`. (include/load_balancing/BoxUtils.h:96-102) -/
def vecToCenteredBoxBoundary (v high : Vec D K) : Vec D K := vecToLowerQuadrantBoundary (Vecs.sub (fun d => |v d|) high)

/-- `vecToBoxBoundary`. (include/load_balancing/BoxUtils.h:104-108) -/
def vecToBoxBoundary (v : Vec D K) (b : Box D K) : Vec D K :=
  vecToCenteredBoxBoundary (Vecs.sub v b.center) (Vecs.sub b.high b.center)

end Box

namespace Samp
open Vecs
variable {D : Nat} {K : Type} [Field K] [LinearOrder K]

/-- State of `findPartitionCenters` for one part: number of points and result.
(include/load_balancing/sample_partitioner/CenterDistancePointAssigningSamplePartitioner.h:13-26) -/
abbrev Acc (D : Nat) (K : Type) := Nat × Vec D K

/-- Lines 21-23 of the loop of `findPartitionCenters`.
(include/load_balancing/sample_partitioner/CenterDistancePointAssigningSamplePartitioner.h:21-23) -/
def centerStep (a : Acc D K) (p : Vec D K) : Acc D K :=
  let n := a.1 + 1
  (n, add (scale a.2 ((n : K) / (1 + n : Nat))) (scale p (1 / (1 + n : Nat))))

/-- The loop of `findPartitionCenters`; `none`: a part number out of range.
(include/load_balancing/sample_partitioner/CenterDistancePointAssigningSamplePartitioner.h:19-24) -/
def centersLoop : List (Nat × Vec D K) → List (Acc D K) → Option (List (Acc D K))
  | [], st => some st
  | (q, p) :: l, st => if q < st.length then centersLoop l (st.modify q fun a => centerStep a p) else none

/-- `findPartitionCenters`.
(include/load_balancing/sample_partitioner/CenterDistancePointAssigningSamplePartitioner.h:13-26) -/
def centers (n : Nat) (sample : List (Nat × Vec D K)) : Option (List (Vec D K)) :=
  (centersLoop sample (List.replicate n (0, fun _ => 0))).map fun st => st.map Prod.snd

/-- Part of a point: the nearest centre.
(include/load_balancing/sample_partitioner/CenterDistancePointAssigningSamplePartitioner.h:83-92) -/
def centerPart (cs : List (Vec D K)) (v : Vec D K) : Nat :=
  minElement (fun l r => decide (lenSq (Vecs.sub l v) < lenSq (Vecs.sub r v))) cs

/-- `CenterDistancePointAssigningSamplePartitioner::partition` for the sample.
(include/load_balancing/sample_partitioner/CenterDistancePointAssigningSamplePartitioner.h:34-57, 79-94) -/
def centerDistance (n : Nat) (sample : List (Nat × Vec D K)) (mkChk : Finset Nat → Chk D K) (pts : Nat → Vec D K)
    (bounds : Box D K) (ids : Finset Nat) : Option (PTree (Chk D K)) :=
  (centers n sample).bind fun cs => Build.assign n (fun i => centerPart cs (pts i)) mkChk bounds ids

/-- `makeBoundingBoxes`; the box of a part without points is not initialised, `u` is its value. `none`: a part number out
of range. (include/load_balancing/sample_partitioner/BoundsDistancePointAssigningSamplePartitioner.h:15-31) -/
def boundingBoxes (u : Box D K) (n : Nat) (sample : List (Nat × Vec D K)) : Option (List (Box D K)) :=
  if ∀ x ∈ sample, x.1 < n then
    some ((List.range n).map fun i => (Box.around ((sample.filter fun x => x.1 == i).map Prod.snd)).getD u)
  else none

/-- Part of a point: the nearest box.
(include/load_balancing/sample_partitioner/BoundsDistancePointAssigningSamplePartitioner.h:84-94) -/
def boxPart (bs : List (Box D K)) (v : Vec D K) : Nat :=
  minElement (fun a b => decide (a < b)) (bs.map fun b => lenSq (Box.vecToBox v b))

/-- `BoundsDistancePointAssigningSamplePartitioner::partition` for the sample.
(include/load_balancing/sample_partitioner/BoundsDistancePointAssigningSamplePartitioner.h:41-63, 80-96) -/
def boundsDistance (u : Box D K) (n : Nat) (sample : List (Nat × Vec D K)) (mkChk : Finset Nat → Chk D K) (pts : Nat → Vec D K)
    (bounds : Box D K) (ids : Finset Nat) : Option (PTree (Chk D K)) :=
  (boundingBoxes u n sample).bind fun bs => Build.assign n (fun i => boxPart bs (pts i)) mkChk bounds ids

/-- Possible results of `findNeighbors(1, v)` of the kd-tree: the position of a nearest sample point. Which one, if there
are several, is not specified. (include/load_balancing/sample_partitioner/NearestSamplePointAssigningSamplePartitioner.h:104-109) -/
def Nearest (sample : List (Nat × Vec D K)) (v : Vec D K) (i : Nat) : Prop :=
  ∃ x, sample[i]? = some x ∧ ∀ y ∈ sample, lenSq (Vecs.sub x.2 v) ≤ lenSq (Vecs.sub y.2 v)

/-- `NearestSamplePointAssigningSamplePartitioner::partition` for the sample; `nn` is the result of the kd-tree.
(include/load_balancing/sample_partitioner/NearestSamplePointAssigningSamplePartitioner.h:21-46, 93-112) -/
def nearestSample (n : Nat) (sample : List (Nat × Vec D K)) (nn : Vec D K → Nat) (mkChk : Finset Nat → Chk D K)
    (pts : Nat → Vec D K) (bounds : Box D K) (ids : Finset Nat) : Option (PTree (Chk D K)) :=
  if ∀ i ∈ ids, Part.isFinite D i = true → nn (pts i) < sample.length then
    Build.assign n (fun i => ((sample[nn (pts i)]?).map Prod.fst).getD 0) mkChk bounds ids
  else none

end Samp
end Verif
