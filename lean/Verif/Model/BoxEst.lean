import Verif.Model.Sampler

/-!
# Estimation of the boxes of two parts

`/repo/include/load_balancing/sample_partitioner/BinaryBoxEstimatingSamplePartitioner.h`, lines 13-66. The recursion
around it is `PTree.binary` in `Verif.Model.PTree`. Exact arithmetic over an ordered field.
-/
namespace Verif
namespace Samp

/-- Body of the inner loop of `findPartitionCenterEdges`; `none`: access out of bounds.
(include/load_balancing/sample_partitioner/BinaryBoxEstimatingSamplePartitioner.h:19-22) -/
def borderStep (g : Graph) (part : List Nat) (n : Nat) (r : List (Nat × Nat)) (i : Nat) : Option (List (Nat × Nat)) := do
  let a ← g.adj[i]?
  let c ← part[n]?
  if c = 0 then
    let e ← part[a]?
    if e ≠ 0 then some (r ++ [(n, a)]) else some r
  else some r

/-- Body of the outer loop. (include/load_balancing/sample_partitioner/BinaryBoxEstimatingSamplePartitioner.h:16-23) -/
def borderNode (g : Graph) (part : List Nat) (r : List (Nat × Nat)) (n : Nat) : Option (List (Nat × Nat)) := do
  let lo ← g.recs[n]?
  let hi ← g.recs[n + 1]?
  (List.range' lo (hi - lo)).foldlM (borderStep g part n) r

/-- `findPartitionCenterEdges`.
(include/load_balancing/sample_partitioner/BinaryBoxEstimatingSamplePartitioner.h:13-26) -/
def borderEdges (g : Graph) (part : List Nat) : Option (List (Nat × Nat)) :=
  (List.range (g.recs.length - 1)).foldlM (borderNode g part) []

section
variable {D : Nat} {K : Type} [Field K] [LinearOrder K]

/-- `makePartitionCenterPoints`; `none`: access out of bounds.
(include/load_balancing/sample_partitioner/BinaryBoxEstimatingSamplePartitioner.h:28-38) -/
def borderPoints (edges : List (Nat × Nat)) (pts : List (Vec D K)) : Option (List (Vec D K)) :=
  edges.mapM fun e => do
    let p ← pts[e.1]?
    let q ← pts[e.2]?
    some (Vecs.scale (Vecs.add p q) (1 / 2))

/-- The results of `std::sort` by coordinate `d`; it is not stable.
(include/load_balancing/sample_partitioner/BinaryBoxEstimatingSamplePartitioner.h:50-53) -/
def SortedBy (d : Fin D) (l r : List (Vec D K)) : Prop := r.Perm l ∧ r.Pairwise fun a b => a d ≤ b d

/-- `borderLength[d]` after the loop over the sorted points; it is assigned, not added up.
(include/load_balancing/sample_partitioner/BinaryBoxEstimatingSamplePartitioner.h:48, 55-57) -/
def borderLength (l : List (Vec D K)) : K :=
  (l.zip l.tail).foldl (fun _ p => Vecs.lenSq (Vecs.sub p.1 p.2)) 0

/-- The results of `estimateBoundingBoxes` up to `splitBox`: dimension and position of the split.
(include/load_balancing/sample_partitioner/BinaryBoxEstimatingSamplePartitioner.h:40-66) -/
def Estimates (pts : List (Vec D K)) (b : Box D K) (k : Fin D) (x : K) : Prop :=
  if pts = [] then k.val = 0 ∧ x = (b.low k + b.high k) / 2
  else ∃ sorted : Fin D → List (Vec D K), (∀ d, SortedBy d pts (sorted d)) ∧
    k.val = Vecs.minElement (fun a c => decide (a < c)) (List.ofFn fun d => borderLength (sorted d)) ∧
    ∃ p, (sorted k)[pts.length / 2]? = some p ∧ x = p k

end

end Samp
end Verif
