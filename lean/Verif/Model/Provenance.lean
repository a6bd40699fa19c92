import Verif.Model.Res
import Verif.Model.Report

/-!
# The provenances of the base triangulations

`/repo/include/LoadBalancedDCTriangulator.tpp` 500-694: each base triangulation is registered with a text that says where in the
recursion it was made; `/repo/include/load_balancing/sample_partitioner/*`: so is the triangulation of each sample. The texts are
written into the report of the experiment (`/repo/include/load_balancing/Experiment.h` 95-105).

Simplifications: of a partition tree only the shape is kept. The tasks of a parallel loop are in the order of the loop; the
order in which the threads register is arbitrary. Exceptions are `ub`.
-/
namespace Verif
namespace Prov

abbrev Str := List Char

/-- The shape of a `PartitionTree`. (include/load_balancing/PartitionTree.h) -/
inductive Shape where
  | leaf
  | node (cs : List Shape)

mutual
/-- `recursiveTriangulate`: the provenances that `_triangulateBase` registers.
(include/LoadBalancedDCTriangulator.tpp:573-694, 517) -/
def names : Shape → Str → Res (List Str)
  | .leaf, p => .done [p]
  | .node [], _ => .ub
  | .node [.leaf], p => .done [p]
  | .node [.node _], _ => .ub
  | .node (c :: d :: cs), p => (namesL (c :: d :: cs) 0 p).bind fun l => .done (l ++ [p ++ ['e']])

/-- The loop over the parts. (include/LoadBalancedDCTriangulator.tpp:605-617) -/
def namesL : List Shape → Nat → Str → Res (List Str)
  | [], _, _ => .done []
  | c :: cs, i, p => (names c (p ++ Report.nat i)).bind fun a => (namesL cs (i + 1) p).bind fun b => .done (a ++ b)
end

/-- `std::to_string(TOP)`. (include/Triangulator.h:38, 67) -/
def top : Str := Report.nat 0

/-- The shapes that a recursive division in two parts makes.
(include/load_balancing/sample_partitioner/NearestSamplePointAssigningSampleBipartitioner.h:45-95; HyperplaneBipartitioner.h:46-140;
BinaryBoxEstimatingSamplePartitioner.h:121-152) -/
inductive Bin where
  | leaf
  | node (l r : Bin)

/-- The tree of such a division. (include/load_balancing/sample_partitioner/NearestSamplePointAssigningSampleBipartitioner.h:86-87) -/
def Bin.shape : Bin → Shape
  | .leaf => .leaf
  | .node l r => .node [l.shape, r.shape]

/-- The leaves of a tree, as `flatten` puts them below the root. (include/load_balancing/FlatPartitioner.h:22-23) -/
def Bin.leaves : Bin → Nat
  | .leaf => 1
  | .node l r => l.leaves + r.leaves

/-- The tree after `flatten`; a leaf stays as it is. (include/load_balancing/FlatPartitioner.h:22-23) -/
def Bin.flat : Bin → Shape
  | .leaf => .leaf
  | .node l r => .node (List.replicate (l.leaves + r.leaves) .leaf)

/-- The provenances that the nearest sample point bipartitioner registers, with the argument of `makePartitioning`.
(include/load_balancing/sample_partitioner/NearestSamplePointAssigningSampleBipartitioner.h:45-80) -/
def near : Bin → Str → List Str
  | .leaf, _ => []
  | .node l r, p => p :: (near l (p ++ ['0']) ++ near r (p ++ ['1']))

/-- The text for the first sample. (include/load_balancing/sample_partitioner/NearestSamplePointAssigningSampleBipartitioner.h:31) -/
def sample : Str := ['s', '0']

/-- The provenances that the hyperplane bipartitioner and the box estimating partitioner register.
(include/load_balancing/sample_partitioner/HyperplaneBipartitioner.h:57; BinaryBoxEstimatingSamplePartitioner.h:129) -/
def fixed : Bin → List Str
  | .leaf => []
  | .node l r => sample :: (fixed l ++ fixed r)

end Prov
end Verif
