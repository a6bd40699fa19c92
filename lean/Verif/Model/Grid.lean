import Verif.Model.Box
import Verif.Model.Res
import Verif.Model.Partitioner
import Mathlib.Algebra.Order.Floor.Ring
import Mathlib.Data.Rat.Floor
import Mathlib.Data.Fintype.Pi
import Mathlib.Data.Finset.Filter

/-!
# Grids, AABB trees and intersection checkers

`/repo/include/load_balancing/Grid.h`, `/repo/include/datastructures/AABBTree.h`,
`/repo/include/load_balancing/GridIntersectionChecker.h`, `AccurateGridIntersectionChecker.h`,
`BoundsIntersectionChecker.h`.

Exact arithmetic over an ordered field with `floor` takes the place of `double`; grid indices (`int64_t`) are
unbounded integers.
-/
namespace Verif

/-! ### Boxes around points -/
namespace Box
variable {D : Nat} {K : Type} [Field K] [LinearOrder K]

/-- `enlargeBoxAroundVector`; the outer loop repeats the same step for every dimension.
(include/load_balancing/BoxUtils.h:24-46) -/
def enlarge (b : Box D K) (v : Vec D K) : Box D K :=
  (List.range D).foldl (fun b _ => ⟨fun d => min (b.low d) (v d), fun d => max (b.high d) (v d)⟩) b

/-- Bounding box of the points in the order of the iteration; `none`: not initialised.
(include/load_balancing/BoxUtils.h:48-62; GridIntersectionChecker.h:132-142) -/
def around : List (Vec D K) → Option (Box D K)
  | [] => none
  | v :: l => some (l.foldl enlarge ⟨v, v⟩)

end Box

namespace Grid
variable {D : Nat} {K : Type} [Field K] [LinearOrder K] [FloorRing K]

/-- `dIndex`. (include/load_balancing/dIndex.h:5) -/
abbrev Index (D : Nat) := Fin D → Int

/-- `Grid::indexAt`, `fitOneDimension`. (include/load_balancing/Grid.h:79-85, 165-169) -/
def indexAt (w : K) (v : Vec D K) : Index D := fun d => ⌊v d / w⌋

/-- `Grid::centerOf`. (include/load_balancing/Grid.h:87-93) -/
def centerOf (w : K) (i : Index D) : Vec D K := fun d => (i d : K) * w + w / 2

/-- `Grid::boundsOf`. (include/load_balancing/Grid.h:95-103) -/
def boundsOf (w : K) (i : Index D) : Box D K := ⟨fun d => (i d : K) * w, fun d => ((i d : K) + 1) * w⟩

/-- `intersectsWith`: the same loop as in `dBox::intersects`. (include/load_balancing/Grid.h:40-64) -/
def intersectsWith (w : K) (s : Sphere D K) (i : Index D) : Bool :=
  let cell := boundsOf w i
  let r2 := s.radius * s.radius
  match Box.intersectsLoop cell s (List.finRange D) 0 with
  | none => false
  | some dist => decide (dist ≤ r2)

end Grid

/-! ### AABB tree -/

/-- `TreeNode`: `leaf` is `nChildren == -1`, otherwise `nChildren` is the length of `children`.
(include/datastructures/AABBTree.h:10-39, 204-207) -/
inductive Node (D : Nat) (K : Type) where
  | mk (box : Box D K) (leaf : Bool) (children : List (Node D K))

namespace Node
variable {D : Nat} {K : Type}

def box : Node D K → Box D K
  | mk b _ _ => b

def leaf : Node D K → Bool
  | mk _ l _ => l

def children : Node D K → List (Node D K)
  | mk _ _ c => c

section
variable [Field K] [LinearOrder K]

/-- `TreeNode::contains(dBox)`. (include/datastructures/AABBTree.h:81-83) -/
def contains (n : Node D K) (b : Box D K) : Bool := n.box.containsBox b || n.box.beq b

/-- Child number `i` of `split`: `mid` is half of the side length, rounded down to a multiple of the cell size.
(include/datastructures/AABBTree.h:181-193) -/
def splitChild [FloorRing K] (w : K) (b : Box D K) (i : Nat) : Node D K :=
  let mid : Vec D K := fun d => (⌊(b.low d + (b.high d - b.low d) / 2) / w⌋ : K) * w
  mk ⟨fun d => if i.testBit d then mid d else b.low d, fun d => if i.testBit d then b.high d else mid d⟩ false []

/-- The loop over the old children; the results are ignored. (include/datastructures/AABBTree.h:195-199) -/
def reinsert (ins : Node D K → Node D K → Res (Node D K × Bool)) : List (Node D K) → Node D K → Res (Node D K)
  | [], n => .done n
  | o :: l, n => (ins n o).bind fun r => reinsert ins l r.1

/-- `split`: less than `2^D` children would be an access to a null pointer.
(include/datastructures/AABBTree.h:174-200) -/
def split [FloorRing K] (w : K) (ins : Node D K → Node D K → Res (Node D K × Bool)) (n : Node D K) : Res (Node D K) :=
  if n.children.length < 2 ^ D then .ub
  else reinsert ins n.children (mk n.box n.leaf ((List.range (2 ^ D)).map (splitChild w n.box)))

/-- Insertion of `b` in child number `i`. (include/datastructures/AABBTree.h:113-121) -/
def insertChild [FloorRing K] (w : K) (ins : Node D K → Node D K → Res (Node D K × Bool)) (n b : Node D K) (i : Nat)
    (c : Node D K) : Res (Node D K × Bool) :=
  (ins c b).bind fun r =>
    if r.2 then .done (mk n.box n.leaf (n.children.set i r.1), true)
    else (split w ins r.1).bind fun c' => (ins c' b).bind fun r' =>
      .done (mk n.box n.leaf (n.children.set i r'.1), r'.2)

/-- No child contains the new node. A leaf would write to `children[-1]`.
(include/datastructures/AABBTree.h:125-133) -/
def insertHere [FloorRing K] (w : K) (ins : Node D K → Node D K → Res (Node D K × Bool)) (n b : Node D K) :
    Res (Node D K × Bool) :=
  if n.leaf then .ub
  else if n.children.length < 2 ^ D then .done (mk n.box n.leaf (n.children ++ [b]), true)
  else (split w ins n).bind fun n' => ins n' b

/-- Body of `TreeNode::insert`, with `ins` for the recursive calls. (include/datastructures/AABBTree.h:93-134) -/
def insertStep [FloorRing K] (w : K) (ins : Node D K → Node D K → Res (Node D K × Bool)) (n b : Node D K) :
    Res (Node D K × Bool) :=
  if !n.box.containsBox b.box then .done (n, false)
  else if n.box.beq b.box then
    .done (if n.children.isEmpty && b.leaf then mk n.box true n.children else n, true)
  else match n.children.findIdx? (fun c => c.contains b.box) with
    | some i => match n.children[i]? with
      | some c => insertChild w ins n b i c
      | none => .ub
    | none => insertHere w ins n b

/-- `TreeNode::insert`, with a bound for the depth of the recursion. (include/datastructures/AABBTree.h:93-134) -/
def insert [FloorRing K] (w : K) : Nat → Node D K → Node D K → Res (Node D K × Bool)
  | 0 => fun _ _ => .timeout
  | f + 1 => insertStep w (insert w f)

mutual
/-- `TreeNode::intersects`. (include/datastructures/AABBTree.h:136-154) -/
def intersects (s : Sphere D K) : Node D K → Bool
  | mk b l cs => b.intersects s && (l || intersectsAny s cs)
/-- Loop over the children. (include/datastructures/AABBTree.h:146-149) -/
def intersectsAny (s : Sphere D K) : List (Node D K) → Bool
  | [] => false
  | n :: l => intersects s n || intersectsAny s l
end

mutual
/-- `TreeNode::intersectingCells`. (include/datastructures/AABBTree.h:157-170) -/
def cells [FloorRing K] (w : K) (s : Sphere D K) : Node D K → List (Grid.Index D)
  | mk b l cs => if b.intersects s then
      if l then [Grid.indexAt w fun d => (1 / 2 : K) * (b.low d + b.high d)] else cellsAll w s cs
    else []
/-- Loop over the children. (include/datastructures/AABBTree.h:165-167) -/
def cellsAll [FloorRing K] (w : K) (s : Sphere D K) : List (Node D K) → List (Grid.Index D)
  | [] => []
  | n :: l => cells w s n ++ cellsAll w s l
end

end
end Node

namespace AABB
variable {D : Nat} {K : Type} [Field K] [LinearOrder K] [FloorRing K]

/-- `AABBTree::round`. (include/datastructures/AABBTree.h:247-256) -/
def round (w : K) (b : Box D K) : Box D K :=
  ⟨fun d => (⌊b.low d / w⌋ : K) * w, fun d => (⌈b.high d / w⌉ : K) * w⟩

/-- `AABBTree::AABBTree`. (include/datastructures/AABBTree.h:216) -/
def root (w : K) (b : Box D K) : Node D K := .mk (round w b) false []

/-- `AABBTree::insert`. (include/datastructures/AABBTree.h:229-231) -/
def insertBox (w : K) (fuel : Nat) (t : Node D K) (b : Box D K) : Res (Node D K × Bool) :=
  Node.insert w fuel t (.mk b true [])

/-- Insertion of grid cells one after another; the results of the single insertions are ignored, here they are
recorded. (include/load_balancing/GridIntersectionChecker.h:21-33) -/
def insertAll (w : K) (fuel : Nat) : List (Grid.Index D) → Node D K → Res (Node D K × List Bool)
  | [], t => .done (t, [])
  | i :: l, t => (insertBox w fuel t (Grid.boundsOf w i)).bind fun r =>
      (insertAll w fuel l r.1).bind fun r' => .done (r'.1, r.2 :: r'.2)

end AABB

/-! ### Intersection checkers -/
namespace Checker
variable {D : Nat} {K : Type} [Field K] [LinearOrder K] [FloorRing K]

/-- `GridIntersectionChecker`: the tree of the cells. (include/load_balancing/GridIntersectionChecker.h:14-46) -/
def grid (w : K) (fuel : Nat) (bounds : Box D K) (cells : List (Grid.Index D)) : Res (Node D K) :=
  (AABB.insertAll w fuel cells (AABB.root w bounds)).bind fun r => .done r.1

/-- Ids of part `i`: the finite ids that are assigned to it and all infinite ones.
(include/load_balancing/GridIntersectionChecker.h:107-149) -/
def partIds (D : Nat) (ids : Finset Nat) (part : Nat → Nat) (i : Nat) : Finset Nat :=
  (Part.infIds D).foldl (fun s k => Insert.insert k s) (ids.filter fun p => Part.isFinite D p = true ∧ part p = i)

/-- Cells of the points of a part, each once (the order does not matter by C60). (include/load_balancing/GridIntersectionChecker.h:131-134) -/
def partCells (w : K) (l : List (Vec D K)) : List (Grid.Index D) := (l.map (Grid.indexAt w)).dedup

/-- Checker of a part, `l` being the coordinates of its finite points in the order of the iteration. The checker
of an empty part has an uninitialised box, which is passed as `u`.
(include/load_balancing/GridIntersectionChecker.h:126-158) -/
def partGrid (w : K) (fuel : Nat) (u : Box D K) (l : List (Vec D K)) : Res (Node D K) :=
  grid w fuel ((Box.around l).getD u) (partCells w l)

/-- `BoundsIntersectionPartitionMaker`. (include/load_balancing/BoundsIntersectionChecker.h:15-19, 60-87) -/
def partBounds (u : Box D K) (l : List (Vec D K)) : Box D K := (Box.around l).getD u

/-- `AccurateGridIntersectionChecker::intersects`: `inCell i` are the points of all parts with cell `i`, `ids` all
ids and `inSph` is `checkCircumsphereContainsPoint`. `none`: a cell without entry.
(include/load_balancing/AccurateGridIntersectionChecker.h:51-66) -/
def accurate (w : K) (t : Node D K) (inCell : Grid.Index D → Option (List Nat)) (ids : Finset Nat)
    (inSph : Nat → Bool) (s : Sphere D K) : Option Bool :=
  let cs := t.cells w s
  if cs.all fun i => (inCell i).isSome then
    some (cs.any fun i => ((inCell i).getD []).any fun p => decide (p ∈ ids) && inSph p)
  else none

/-- The map from cells to points. (include/load_balancing/AccurateGridIntersectionChecker.h:122-132) -/
def cellMap (w : K) (pts : Nat → Vec D K) (ids : List Nat) (i : Grid.Index D) : Option (List Nat) :=
  let l := ids.filter fun p => decide (Grid.indexAt w (pts p) = i)
  if l.isEmpty then none else some l

end Checker
end Verif
