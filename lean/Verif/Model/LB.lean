import Verif.Model.DCTri
import Verif.Model.PTree

/-!
# The load-balanced divide-and-conquer triangulator

`/repo/include/LoadBalancedDCTriangulator.tpp`. Its functions `buildWhereUsed`, `updateNeighbors` and `mergeTriangulation`
(lines 205-500) are literally those of `/repo/src/lib/DCTriangulator.cpp` (lines 181-497), and `getEdge` (lines 118-204)
differs from the one there only by asking the checkers of the other parts instead of their bounds. Hence the model of
these functions (`MergeTri`, `GetEdge`) is used for both. The monitor, the logger and the profiler are left out.
-/
namespace Verif
namespace DC
variable {D : Nat} {K : Type} [Field K] [LinearOrder K]

/-- The components of the triangulator. `base parallel len` is the base triangulator chosen by `parallel`, called with a
provenance of length `len`; `cs` computes the circumsphere of a simplex from its vertices.
(include/LoadBalancedDCTriangulator.tpp:56-104, 501-552) -/
structure LBParams (D : Nat) (K : Type) where
  hash : Nat → BitVec 32
  parBase : Bool
  parEdge : Bool
  base : Bool → Nat → Finset Nat → Tri → Prop
  cs : List Nat → Sphere D K

/-- `intersectionCheckers[k]->intersects(cs, simplex)` for a simplex with the vertices `vs`.
(include/LoadBalancedDCTriangulator.tpp:174-181) -/
def LBParams.interPart {D : Nat} {K : Type} (A : LBParams D K) (pcs : List (Part.Partition D K × Chk D K)) (vs : List Nat)
    (k : Nat) : Bool :=
  match pcs[k]? with
  | some pc => pc.2.meets (A.cs vs) vs
  | none => false

/-- `recursiveTriangulate(tree, provenance)`; the provenance is represented by its length. There is no result if a null
pointer is dereferenced, if the only child of a node is not a leaf (`std::get` throws), or if an inner node has no
children (access to element 0). All ways in which the concurrent parts can behave are included. The ids of the
triangulations come from the counter `simplexID`, hence their ranges are disjoint (C55).
(include/LoadBalancedDCTriangulator.tpp:572-695) -/
inductive LBTri {D : Nat} {K : Type} (A : LBParams D K) : Nat → PTree (Chk D K) → Tri → Prop
  /-- line 692: a leaf -/
  | leaf (len : Nat) (c : Chk D K) (S : Finset Nat) (T : Tri) (hb : A.base A.parBase len S T) :
      LBTri A len (.leaf (some c) S) T
  /-- lines 689-690: a node with one child -/
  | single (len : Nat) (c : Chk D K) (c' : Option (Chk D K)) (S : Finset Nat) (T : Tri) (hb : A.base A.parBase len S T) :
      LBTri A len (.node (some c) [.leaf c' S]) T
  /-- lines 584-685 -/
  | node (len : Nat) (c : Chk D K) (l : List (PTree (Chk D K))) (hl : 1 < l.length)
      -- lines 603-618, the argument is copied
      (cps : List (PTree (Chk D K))) (hcp : PTree.copyAll l = some cps)
      (dts : List Tri) (hlen : dts.length = l.length)
      (hrec : ∀ (i : Nat) (t : PTree (Chk D K)) (T : Tri), cps[i]? = some t → dts[i]? = some T →
        LBTri A (len + Build.digits i) t T)
      -- lines 620-623
      (pcs : List (Part.Partition D K × Chk D K)) (hpcs : PTree.toOld l = some pcs)
      -- lines 635-646
      (dts' : List Tri) (hlen' : dts'.length = l.length) (eS eP : Nat → Finset Nat)
      (hedge : ∀ (i : Nat) (T T' : Tri), dts[i]? = some T → dts'[i]? = some T' →
        GetEdge D T (fun s => meetsOther pcs.length i (A.interPart pcs (T.vs s))) T' (eS i) (eP i))
      -- lines 668-669
      (E : Tri) (hE : A.base A.parEdge (len + 1) ((Finset.range pcs.length).biUnion eP) E)
      (hdisj : (E :: dts').Pairwise fun a b => Disjoint a.range b.range)
      -- line 684
      (R : Tri) (hm : MergeTri A.hash (pcs.map Prod.fst) dts' ((Finset.range pcs.length).biUnion eS) E R) :
      LBTri A len (.node (some c) l) R

/-- The components that the constructor creates: the sequential base triangulator is CGAL's (`seq`), the parallel one is
`DCTriangulator` with the cycle splitter, which in turn uses `seq` and triangulates its edges in parallel.
(include/LoadBalancedDCTriangulator.tpp:96-103, 501-552) -/
def lbParams (hash : Nat → BitVec 32) (depth cutoff : Nat) (parBase parEdge : Bool) (seq : Finset Nat → Tri → Prop)
    (big tiny : K) (pts : Nat → Vec D K) (cs : List Nat → Sphere D K) : LBParams D K where
  hash := hash
  parBase := parBase
  parEdge := parEdge
  base := fun par len S T =>
    if par = true then Triangulate (params hash depth cutoff true seq .cycle big tiny pts cs) len S T else seq S T
  cs := cs

end DC
end Verif
