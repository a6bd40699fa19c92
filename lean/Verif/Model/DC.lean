import Verif.Model.Work
import Verif.Model.Partitioner
import Mathlib.Data.Finset.Union
import Mathlib.Data.Finset.Range
import Mathlib.Data.Finset.Card
import Mathlib.Data.Finset.Lattice.Basic

/-!
# Divide and conquer (src/lib/DCTriangulator.cpp)

A triangulation (`dSimplices`, include/Geometry.h:723-961) is represented by functions on simplex numbers:
the blocks of `BlockedArray2` (whose lookup is the subject of C26-C29) are replaced by the set `range` of
numbers that have storage. The members of the simplex stored under a number are separate functions, because
the parallel loops change only some of them. A deleted simplex keeps its storage but its `id` is
`dSimplex::cINF`.

The functions are generic in the vertex hash (`rol`, Geometry.h:657-663) and in the test "circumsphere meets
the bounds of another part".
-/
namespace Verif
namespace DC

/-- `dSimplex::cINF`, the infinite simplex id. (include/Geometry.h:679) -/
def sINF : Nat := 2 ^ 64 - 1

/-- `dSimplices`. (include/Geometry.h:723-961) -/
structure Tri where
  /-- numbers with storage -/
  range : Finset Nat
  /-- member `id` of the stored simplex -/
  id : Nat → Nat
  /-- member `vertices` -/
  vs : Nat → List Nat
  /-- member `neighbors` -/
  ns : Nat → List Nat
  /-- member `mark` of the stored simplex -/
  mks : Nat → Nat
  /-- `convexHull` -/
  hull : List Nat
  /-- `mark` of the triangulation -/
  mark : Nat

/-- `dSimplices::contains(id)`. (include/Geometry.h:782-787, 950-952) -/
def Tri.contains (T : Tri) (i : Nat) : Bool := decide (i ∈ T.range) && decide (T.id i ≠ sINF)

/-- `++simplices.mark` on an 8-bit mark (`tMarkType`, include/Geometry.h:40). -/
def nextMark (m : Nat) : Nat := (m + 1) % 256

/-! ### getEdge -/

/-- Shared state of `getEdge`: the marks, `edgeSimplices` and `edgePoints`. The concurrent hash sets are
replaced by sets (C17-C20). -/
structure EdgeSt where
  mks : Nat → Nat
  simps : Finset Nat
  pts : Finset Nat

/-- Program points of the body of `getEdge`. (src/lib/DCTriangulator.cpp:133-177) -/
inductive EdgeL where
  /-- lines 136-149: check the id and read the mark -/
  | chk (x : Nat)
  /-- line 150: write the done mark -/
  | setDone (x : Nat)
  /-- lines 152-158: circumsphere test -/
  | test (x : Nat)
  /-- line 163: insert into the edge simplices -/
  | insS (x : Nat)
  /-- lines 165-167: insert the vertices -/
  | insV (x : Nat) (vs : List Nat)
  /-- lines 169-170: read the mark of the next neighbour -/
  | nb (x : Nat) (ns : List Nat)
  /-- line 172: write the queued mark of neighbour `n` -/
  | setq (x n : Nat) (ns : List Nat)
  /-- line 173: feed -/
  | feed (x n : Nat) (ns : List Nat)

/-- Body of the loop of `getEdge`, `q` and `d` are `queuedMark` and `doneMark`; `meets i` is the result of
lines 152-157 for simplex `i`. (src/lib/DCTriangulator.cpp:133-177) -/
def edgeStep (T : Tri) (meets : Nat → Bool) (q d : Nat) :
    EdgeL → EdgeSt → Option (EdgeSt × Option EdgeL × List Nat)
  | .chk x, s =>
    if x = sINF then some (s, none, [])
    else if x ∈ T.range then
      if s.mks x = d then some (s, none, []) else some (s, some (.setDone x), [])
    else none
  | .setDone x, s => some ({ s with mks := Function.update s.mks x d }, some (.test x), [])
  | .test x, s => if meets x then some (s, some (.insS x), []) else some (s, none, [])
  | .insS x, s => some ({ s with simps := insert (T.id x) s.simps }, some (.insV x (T.vs x)), [])
  | .insV x [], s => some (s, some (.nb x (T.ns x)), [])
  | .insV x (v :: vs), s => some ({ s with pts := insert v s.pts }, some (.insV x vs), [])
  | .nb _ [], s => some (s, none, [])
  | .nb x (n :: ns), s =>
    if n = sINF then some (s, some (.nb x ns), [])
    else if n ∈ T.range then
      if s.mks n < q then some (s, some (.setq x n ns), []) else some (s, some (.nb x ns), [])
    else none
  | .setq x n ns, s => some ({ s with mks := Function.update s.mks n q }, some (.feed x n ns), [])
  | .feed x n ns, s => some (s, some (.nb x ns), [n])

/-- The loop of `getEdge`. (src/lib/DCTriangulator.cpp:133-177) -/
def edgeProg (T : Tri) (meets : Nat → Bool) : Work.Prog EdgeSt EdgeL Nat where
  init := .chk
  step := edgeStep T meets (nextMark T.mark) (nextMark (nextMark T.mark))

/-- State before the loop: the infinite ids are already edge points. (src/lib/DCTriangulator.cpp:102-106) -/
def edgeStart (D : Nat) (T : Tri) : EdgeSt := ⟨T.mks, ∅, (Part.infIds D).toFinset⟩

/-- Results of `getEdge` for one part: the triangulation with the marks changed, the edge simplices and the
edge points. (src/lib/DCTriangulator.cpp:96-180) The sets are shared by all parts and only grow, so that
they finally contain the union. -/
def GetEdge (D : Nat) (T : Tri) (meets : Nat → Bool) (T' : Tri) (simps pts : Finset Nat) : Prop :=
  ∃ mks, Work.Final (edgeProg T meets) (edgeStart D T) (T.hull : Multiset Nat) ⟨mks, simps, pts⟩ ∧
    T' = { T with mks := mks, mark := nextMark (nextMark T.mark) }

/-- Lines 152-157: the circumsphere meets the bounds of some part other than `partition`. -/
def meetsOther (parts : Nat) (partition : Nat) (inter : Nat → Bool) : Bool :=
  (List.range parts).any fun i => decide (i ≠ partition) && inter i

/-! ### merge, filter -/

/-- `dSimplices::merge`. (include/Geometry.h:806-815) -/
def Tri.merge (T O : Tri) (mergeHull : Bool) : Tri where
  range := T.range ∪ O.range
  id := fun i => if i ∈ T.range then T.id i else O.id i
  vs := fun i => if i ∈ T.range then T.vs i else O.vs i
  ns := fun i => if i ∈ T.range then T.ns i else O.ns i
  mks := fun i => if i ∈ T.range then T.mks i else O.mks i
  hull := if mergeHull then T.hull ++ O.hull else T.hull
  mark := max T.mark O.mark

/-- `dSimplices::filter`; `none`: an id without storage is accessed. (include/Geometry.h:817-836) -/
def Tri.filter (T : Tri) (del : Finset Nat) : Option Tri :=
  if del ⊆ T.range then
    some { T with
      id := fun i => if i ∈ del then sINF else T.id i
      hull := T.hull.filter fun i => decide (i ∉ del) }
  else none

/-! ### buildWhereUsed -/

/-- Fingerprint of a vertex list for a vertex hash. (include/Geometry.h:634-643) -/
def fpOf (hash : Nat → BitVec 32) (vs : List Nat) : BitVec 32 := vs.foldl (fun a v => a ^^^ hash v) 0#32

/-- `faceFingerprint(i)`. (include/Geometry.h:650-653) -/
def faceKey (hash : Nat → BitVec 32) (vs : List Nat) (i : Nat) : BitVec 32 :=
  (fpOf hash vs ^^^ hash (vs.getD i 0)) ||| 1#32

/-- Shared state: marks and the face index, as list of insertions. The concurrent growing multimap is
replaced by a bag of pairs (C21-C23). -/
structure WuSt where
  mks : Nat → Nat
  wu : List (BitVec 32 × Nat)

/-- Program points of the body of `buildWhereUsed`. (src/lib/DCTriangulator.cpp:211-245) -/
inductive WuL where
  /-- lines 212-214 -/
  | chk (e : Nat)
  /-- line 217 -/
  | setDone (e : Nat)
  /-- lines 219-222: next neighbour -/
  | nb (e : Nat) (ns : List Nat)
  /-- line 223 -/
  | setq (e n : Nat) (ns : List Nat)
  /-- lines 225-228: insert face `i` of neighbour `n` -/
  | ins (e n i : Nat) (ns : List Nat)

/-- Body of the loop. (src/lib/DCTriangulator.cpp:211-245) -/
def wuStep (D : Nat) (hash : Nat → BitVec 32) (T : Tri) (edge : Finset Nat) (q d : Nat) :
    WuL → WuSt → Option (WuSt × Option WuL × List Nat)
  | .chk e, s =>
    if e ∈ T.range then
      if s.mks e = d then some (s, none, []) else some (s, some (.setDone e), [])
    else none
  | .setDone e, s => some ({ s with mks := Function.update s.mks e d }, some (.nb e (T.ns e)), [])
  | .nb _ [], s => some (s, none, [])
  | .nb e (n :: ns), s =>
    if n ≠ sINF ∧ n ∉ edge then
      if n ∈ T.range then
        if s.mks n < q then some (s, some (.setq e n ns), []) else some (s, some (.nb e ns), [])
      else none
    else some (s, some (.nb e ns), [])
  | .setq e n ns, s => some ({ s with mks := Function.update s.mks n q }, some (.ins e n 0 ns), [])
  | .ins e n i ns, s =>
    if i < D + 1 then
      some ({ s with wu := (faceKey hash (T.vs n) i, n) :: s.wu }, some (.ins e n (i + 1) ns), [])
    else some (s, some (.nb e ns), [])

/-- The loop of `buildWhereUsed`. (src/lib/DCTriangulator.cpp:205-246) -/
def wuProg (D : Nat) (hash : Nat → BitVec 32) (T : Tri) (edge : Finset Nat) : Work.Prog WuSt WuL Nat where
  init := .chk
  step := wuStep D hash T edge (nextMark T.mark) (nextMark (nextMark T.mark))

/-- `buildWhereUsed`. (src/lib/DCTriangulator.cpp:182-249) -/
def BuildWhereUsed (D : Nat) (hash : Nat → BitVec 32) (T : Tri) (edge : Finset Nat) (T' : Tri)
    (wu : List (BitVec 32 × Nat)) : Prop :=
  ∃ mks, Work.Final (wuProg D hash T edge) ⟨T.mks, []⟩ edge.val ⟨mks, wu⟩ ∧
    T' = { T with mks := mks, mark := nextMark (nextMark T.mark) }

/-! ### mergeTriangulation -/

/-- `std::lower_bound` on a range sorted by fingerprint. (src/lib/DCTriangulator.cpp:436-438) -/
def lowerBound (fp : Nat → BitVec 32) (del : List Nat) (key : BitVec 32) : List Nat :=
  del.dropWhile fun i => decide (fp i < key)

/-- `equalVertices` (include/Geometry.h:455-476), on vertex lists of equal length with fingerprints
computed from the vertices. -/
def equalVs (hash : Nat → BitVec 32) (a b : List Nat) : Bool :=
  if fpOf hash a ≠ fpOf hash b then false else (a.zip b).all fun p => p.1 == p.2

/-- The loop of lines 441-445: is there a deleted simplex with the same vertices? -/
def foundDeleted (hash : Nat → BitVec 32) (M : Tri) (del : List Nat) (vs : List Nat) : Bool :=
  ((lowerBound (fun i => fpOf hash (M.vs i)) del (fpOf hash vs)).takeWhile
    fun i => decide (fpOf hash (M.vs i) = fpOf hash vs)).any fun i => equalVs hash vs (M.vs i)

/-- Lines 430-446: decide whether an edge simplex is inserted; `none`: `partition` throws or the vertex
array is empty. -/
def insertEdge {D : Nat} {K : Type} (hash : Nat → BitVec 32) (ps : List (Part.Partition D K)) (M : Tri)
    (del : List Nat) (vs : List Nat) : Option Bool :=
  (vs[0]?).bind fun v0 => (Part.partitionOf ps v0).bind fun p0 => (ps[p0]?).map fun p =>
    let ins := !(p.containsVs false vs)
    if ins then true else foundDeleted hash M del vs

/-- `dSimplex::isFinite()`: no infinite vertex. (include/Geometry.h:554-564) -/
def vsFinite (D : Nat) (vs : List Nat) : Bool := vs.all fun v => Part.isFinite D v

/-- State of the loop of lines 419-461. -/
structure MergeSt where
  id : Nat → Nat
  ins : List Nat
  hull : List Nat
  wu : List (BitVec 32 × Nat)

/-- Body of the loop for the edge simplex with number `i`. (src/lib/DCTriangulator.cpp:427-460) Each
iteration changes only its own simplex and appends to concurrent containers, iterations are treated as
atomic and executed in any order. -/
def mergeStep {D : Nat} {K : Type} (hash : Nat → BitVec 32) (ps : List (Part.Partition D K)) (M : Tri)
    (del : List Nat) (edge : Tri) (s : MergeSt) (i : Nat) : Option MergeSt :=
  (insertEdge hash ps M del (edge.vs i)).map fun b =>
    if b then
      { s with
        ins := s.ins ++ [i]
        hull := if vsFinite D (edge.vs i) then s.hull else s.hull ++ [i]
        wu := (List.range (D + 1)).foldl (fun w d => (faceKey hash (edge.vs i) d, i) :: w) s.wu }
    else { s with id := Function.update s.id i sINF }

/-! ### updateNeighbors -/

/-- Shared state: neighbours and marks. (src/lib/DCTriangulator.cpp:278-345) -/
structure NbSt where
  ns : Nat → List Nat
  mks : Nat → Nat

/-- Program points of the body of `updateNeighbors`. (src/lib/DCTriangulator.cpp:278-345) -/
inductive NbL where
  /-- lines 285-287 -/
  | chk (x : Nat)
  /-- line 290 -/
  | setDone (x : Nat)
  /-- lines 298-309: slot `d`, test whether an update is needed -/
  | slot (x d : Nat)
  /-- line 312: reset -/
  | reset (x d : Nat)
  /-- lines 320-327: next candidate -/
  | cand (x d : Nat) (cs : List Nat)
  /-- line 331: write -/
  | wr (x d c : Nat) (cs : List Nat)
  /-- line 332: read the mark of the candidate -/
  | rd (x d c : Nat) (cs : List Nat)
  /-- line 333: write the mark -/
  | setq (x d c : Nat) (cs : List Nat)
  /-- line 334: feed -/
  | feed (x d c : Nat) (cs : List Nat)

/-- Lines 305-309: the entry has to be updated. -/
def needsUpdate (D : Nat) (T : Tri) (x n : Nat) : Bool :=
  decide (n = sINF) || (!T.contains n || !(Simplex.shared (T.vs x) (T.vs n) == D))

/-- Lines 322-327: the candidate is accepted. -/
def accept (D : Nat) (T : Tri) (x d c : Nat) : Bool :=
  decide (c ≠ T.id x) && decide (c ≠ sINF) && T.contains c && (Simplex.shared (T.vs x) (T.vs c) == D) &&
    !Simplex.containsVs ((T.vs x).getD d 0) (T.vs c)

/-- Body of the loop; `get` is the lookup in the face index, which does not change any more.
(src/lib/DCTriangulator.cpp:278-345) -/
def nbStep (D : Nat) (hash : Nat → BitVec 32) (T : Tri) (get : BitVec 32 → List Nat) (q d : Nat) :
    NbL → NbSt → Option (NbSt × Option NbL × List Nat)
  | .chk x, s =>
    if x ∈ T.range then
      if s.mks x = d then some (s, none, []) else some (s, some (.setDone x), [])
    else none
  | .setDone x, s => some ({ s with mks := Function.update s.mks x d }, some (.slot x 0), [])
  | .slot x e, s =>
    if e < D + 1 then
      if needsUpdate D T x ((s.ns x).getD e 0) then some (s, some (.reset x e), [])
      else some (s, some (.slot x (e + 1)), [])
    else some (s, none, [])
  | .reset x e, s =>
    some ({ s with ns := Function.update s.ns x ((s.ns x).set e sINF) },
      some (.cand x e (get (faceKey hash (T.vs x) e))), [])
  | .cand x e [], s => some (s, some (.slot x (e + 1)), [])
  | .cand x e (c :: cs), s =>
    if accept D T x e c then some (s, some (.wr x e c cs), []) else some (s, some (.cand x e cs), [])
  | .wr x e c cs, s =>
    some ({ s with ns := Function.update s.ns x ((s.ns x).set e c) }, some (.rd x e c cs), [])
  | .rd x e c cs, s =>
    if c ∈ T.range then
      if s.mks c < q then some (s, some (.setq x e c cs), []) else some (s, some (.cand x e cs), [])
    else none
  | .setq x e c cs, s => some ({ s with mks := Function.update s.mks c q }, some (.feed x e c cs), [])
  | .feed x e c cs, s => some (s, some (.cand x e cs), [c])

/-- The loop of `updateNeighbors`. (src/lib/DCTriangulator.cpp:272-347) -/
def nbProg (D : Nat) (hash : Nat → BitVec 32) (T : Tri) (get : BitVec 32 → List Nat) :
    Work.Prog NbSt NbL Nat where
  init := .chk
  step := nbStep D hash T get (nextMark T.mark) (nextMark (nextMark T.mark))

/-- A lookup function for the face index: all values stored under the key, in some order. (src/lib/DCTriangulator.cpp:308-316) -/
def IsLookup (wu : List (BitVec 32 × Nat)) (get : BitVec 32 → List Nat) : Prop :=
  ∀ k c, c ∈ get k ↔ (k, c) ∈ wu

/-- `updateNeighbors`. (src/lib/DCTriangulator.cpp:251-353) -/
def UpdateNeighbors (D : Nat) (hash : Nat → BitVec 32) (T : Tri) (toCheck : List Nat)
    (wu : List (BitVec 32 × Nat)) (T' : Tri) : Prop :=
  ∃ get ns mks, IsLookup wu get ∧
    Work.Final (nbProg D hash T get) ⟨T.ns, T.mks⟩ (toCheck : Multiset Nat) ⟨ns, mks⟩ ∧
    T' = { T with ns := ns, mks := mks, mark := nextMark (nextMark T.mark) }

/-- `mergeTriangulation`. (src/lib/DCTriangulator.cpp:355-475)
`dts` are the partial triangulations in order, `edge` the edge triangulation. -/
def MergeTri {D : Nat} {K : Type} (hash : Nat → BitVec 32) (ps : List (Part.Partition D K))
    (dts : List Tri) (edgeSimps : Finset Nat) (edge : Tri) (R : Tri) : Prop :=
  ∃ (d0 : Tri) (rest : List Tri) (M1 M2 : Tri) (wu1 : List (BitVec 32 × Nat)) (del order : List Nat)
    (st : MergeSt),
    -- lines 368-373
    dts = d0 :: rest ∧
    (rest.foldl (fun m d => m.merge d true) d0).filter edgeSimps = some M1 ∧
    -- line 386
    BuildWhereUsed D hash M1 edgeSimps M2 wu1 ∧
    -- lines 395-397: the deleted simplices, sorted by fingerprint
    del.Perm edgeSimps.toList ∧
    del.Pairwise (fun a b => fpOf hash (M2.vs a) ≤ fpOf hash (M2.vs b)) ∧
    -- lines 419-461: all valid simplices of the edge triangulation, in any order
    order.Perm (edge.range.filter fun i => edge.contains i = true).toList ∧
    order.foldlM (mergeStep hash ps M2 del edge) ⟨edge.id, [], [], wu1⟩ = some st ∧
    -- lines 463-472
    (let M3 := M2.merge { edge with id := st.id } false
     UpdateNeighbors D hash { M3 with hull := M3.hull ++ st.hull } st.ins st.wu R)

/-! ### _triangulate -/

/-- Parameters of a `DCTriangulator`. (include/DCTriangulator.h:30-60) -/
structure Params (D : Nat) (K : Type) where
  /-- vertex hash -/
  hash : Nat → BitVec 32
  /-- `recursionDepth` -/
  depth : Nat
  /-- `BASE_CUTOFF` -/
  cutoff : Nat
  /-- `parallelEdgeTria` -/
  parEdge : Bool
  /-- results of the base triangulator -/
  base : Finset Nat → Tri → Prop
  /-- results of `splitter->partition(points, ..., provenance)`, by length of the provenance -/
  split : Nat → Finset Nat → List (Part.Partition D K) → Prop
  /-- does the circumsphere of a simplex with these vertices meet these bounds? -/
  inter : Box D K → List Nat → Bool

/-- `partitioning[i].bounds.intersects(cs)` for the circumsphere of a simplex with vertices `vs`.
(src/lib/DCTriangulator.cpp:152-157) -/
def Params.interPart {D : Nat} {K : Type} (A : Params D K) (ps : List (Part.Partition D K)) (vs : List Nat)
    (j : Nat) : Bool :=
  match ps[j]? with
  | some p => A.inter p.bounds vs
  | none => false

/-- `_triangulate(partitionPoints, bounds, provenance)`; the provenance is represented by its length
(the part numbers have one digit). All ways in which the concurrent parts can behave are included. The ids
of the triangulations come from the counter `simplexID`, hence their ranges are disjoint (C55).
(src/lib/DCTriangulator.cpp:498-608) -/
inductive Triangulate {D : Nat} {K : Type} (A : Params D K) : Nat → Finset Nat → Tri → Prop
  /-- line 605: base case -/
  | base (len : Nat) (S : Finset Nat) (T : Tri) (hc : ¬ (len - 1 < A.depth ∧ A.cutoff < S.card))
      (hb : A.base S T) : Triangulate A len S T
  /-- lines 511-603: recursive case -/
  | node (len : Nat) (S : Finset Nat) (hc : len - 1 < A.depth ∧ A.cutoff < S.card)
      (ps : List (Part.Partition D K)) (hps : A.split len S ps)
      -- lines 530-542
      (dts : List Tri) (hlen : dts.length = ps.length)
      (hrec : ∀ (i : Nat) (p : Part.Partition D K) (T : Tri), ps[i]? = some p → dts[i]? = some T → Triangulate A (len + 1) p.points T)
      -- lines 550-561
      (dts' : List Tri) (hlen' : dts'.length = ps.length) (eS eP : Nat → Finset Nat)
      (hedge : ∀ (i : Nat) (T T' : Tri), dts[i]? = some T → dts'[i]? = some T' →
        GetEdge D T (fun s => meetsOther ps.length i (A.interPart ps (T.vs s))) T' (eS i) (eP i))
      -- lines 584-589
      (E : Tri)
      (hE : A.parEdge = true → Triangulate A (len + 1) ((Finset.range ps.length).biUnion eP) E)
      (hE' : A.parEdge = false → A.base ((Finset.range ps.length).biUnion eP) E)
      (hdisj : (E :: dts').Pairwise fun a b => Disjoint a.range b.range)
      -- line 602
      (R : Tri) (hm : MergeTri A.hash ps dts' ((Finset.range ps.length).biUnion eS) E R) :
      Triangulate A len S R

end DC
end Verif
