import Verif.Model.Box
import Verif.Model.Simplex
import Mathlib.Data.Finset.Insert

/-!
# Point statistics and splitters (include/Partitioner.h, src/lib/Partitioner.cpp)

Point ids are naturals below 2^64. Id sets are finite sets: that the hash sets of the code behave
like sets is C01, C10, C11. `pts` gives the coordinates of the points by id; ids are assumed to be
contained in the point container (`ASSERT(points.contains(id))`).
-/
namespace Verif
namespace Part
variable {D : Nat} {K : Type*} [Field K] [LinearOrder K]

/-- `dPoint::cINF` as a number, see C34. (include/Geometry.h:224) -/
def cINF (D : Nat) : Nat := 2 ^ 64 - 2 ^ D

/-- `dPoint::isFinite`, by C34 the comparison with `cINF`. (include/Geometry.h:205-208) -/
def isFinite (D : Nat) (id : Nat) : Bool := decide (id < cINF D)

/-! ### Statistics -/

/-- `dPointStats`. (include/Partitioner.h:74-93) -/
structure Stats (D : Nat) (K : Type*) where
  min : Vec D K
  mid : Vec D K
  max : Vec D K

/-- Default constructor: `big` is `numeric_limits::max()`, `tiny` is `numeric_limits::min()`, the
smallest positive normal number. (include/Partitioner.h:77-84) -/
def Stats.init (big tiny : K) : Stats D K := ⟨fun _ => big, fun _ => 0, fun _ => tiny⟩

/-- The per-dimension loop of `getPointStatsSeq`; returns minimum and maximum.
(include/Partitioner.h:124-137) -/
def seqDim (D : Nat) (big tiny : K) (ignoreInf : Bool) (c : Nat → K) (ids : List Nat) : K × K :=
  ids.foldl (fun s id =>
    if isFinite D id || !ignoreInf then (Min.min s.1 (c id), Max.max s.2 (c id)) else s) (big, tiny)

/-- `getPointStatsSeq`. (include/Partitioner.h:115-143) -/
def getPointStatsSeq (big tiny : K) (pts : Nat → Vec D K) (ids : List Nat) (ignoreInf : Bool) :
    Stats D K :=
  let s := fun d => seqDim D big tiny ignoreInf (fun id => pts id d) ids
  ⟨fun d => (s d).1, fun d => ((s d).2 + (s d).1) / 2, fun d => (s d).2⟩

/-- Body of the parallel loop for one id. (include/Partitioner.h:158-173) -/
def addPoint (pts : Nat → Vec D K) (ignoreInf : Bool) (s : Stats D K) (id : Nat) : Stats D K :=
  if isFinite D id || !ignoreInf then
    { s with min := fun d => Min.min (s.min d) (pts id d), max := fun d => Max.max (s.max d) (pts id d) }
  else s

/-- The thread-local statistics of a thread that processed `ids` (one or more ranges), starting from a
default-constructed object. (include/Partitioner.h:150-173) -/
def threadStats (big tiny : K) (pts : Nat → Vec D K) (ignoreInf : Bool) (ids : List Nat) : Stats D K :=
  ids.foldl (addPoint pts ignoreInf) (Stats.init big tiny)

/-- The lambda given to `combine`. (include/Partitioner.h:176-185) -/
def combine2 (a b : Stats D K) : Stats D K :=
  ⟨fun d => Min.min (a.min d) (b.min d), fun _ => 0, fun d => Max.max (a.max d) (b.max d)⟩

/-- `enumerable_thread_specific::combine`: a default object if no thread has a local object, otherwise
a left fold. (include/Partitioner.h:176) -/
def combine (big tiny : K) : List (Stats D K) → Stats D K
  | [] => Stats.init big tiny
  | s :: ss => ss.foldl combine2 s

/-- `getPointStats`: `work` lists for each participating thread the ids it processed, in its order.
(include/Partitioner.h:145-192) -/
def getPointStats (big tiny : K) (pts : Nat → Vec D K) (work : List (List Nat)) (ignoreInf : Bool) :
    Stats D K :=
  let s := combine big tiny (work.map (threadStats big tiny pts ignoreInf))
  { s with mid := fun d => (s.max d + s.min d) / 2 }

/-! ### Partitions -/

/-- `Partition`. (include/Partitioner.h:15-52) -/
structure Partition (D : Nat) (K : Type*) where
  id : Nat
  points : Finset Nat
  bounds : Box D K

/-- `Partition::contains(id)`; `count` of a set is 0 or 1. (include/Partitioner.h:30) -/
def Partition.contains (p : Partition D K) (i : Nat) : Bool := decide (i ∈ p.points)

/-- `Partition::contains(simplex, partially)`. (include/Partitioner.h:32-46) -/
def Partition.containsVs (p : Partition D K) (partially : Bool) : List Nat → Bool
  | [] => !partially
  | v :: vs =>
    let t := p.contains v
    if !partially && !t then false
    else if partially && t then true
    else p.containsVs partially vs

/-- `Partitioning::partition(p)`; `none`: throws. (include/Partitioner.h:64-71) -/
def partitionOf : List (Partition D K) → Nat → Option Nat
  | [], _ => none
  | part :: ps, i => if part.contains i then some part.id else partitionOf ps i

/-- `partitioning[part].points.insert(id)`; `none`: index out of bounds. (src/lib/Partitioner.cpp:45, 104, 159, 243) -/
def insertAt (ps : List (Partition D K)) (part : Nat) (id : Nat) : Option (List (Partition D K)) :=
  if h : part < ps.length then
    some (ps.set part { ps[part] with points := insert id ps[part].points })
  else none

/-- The distribution loop common to all splitters: infinite points are skipped, `partOf id` is the part
number (`none`: undefined behaviour). (src/lib/Partitioner.cpp:30-47, 91-105, 143-160, 227-244)
The loops of the cycle and extend splitters run in parallel and insert into concurrent sets; `ids` is
the order in which the insertions take effect. -/
def distribute (D : Nat) (partOf : Nat → Option Nat) : List Nat → List (Partition D K) →
    Option (List (Partition D K))
  | [], ps => some ps
  | id :: ids, ps =>
    if !isFinite D id then distribute D partOf ids ps
    else (partOf id).bind fun part => (insertAt ps part id).bind (distribute D partOf ids)

/-- The infinite ids, `for (k = cINF; k != 0; ++k)`. (src/lib/Partitioner.cpp:52, 110, 183, 267) -/
def infIds (D : Nat) : List Nat := List.range' (cINF D) (2 ^ D)

/-- "add infinite points". (src/lib/Partitioner.cpp:51-57, 109-115, 182-188, 266-272) -/
def addInfinite (D : Nat) (ignoreInf : Bool) (ps : List (Partition D K)) : List (Partition D K) :=
  if !ignoreInf then
    ps.map fun p => { p with points := (infIds D).foldl (fun s k => insert k s) p.points }
  else ps

/-- Part number computed by the d-way splitter. (src/lib/Partitioner.cpp:38-41) -/
def dWayPart (stats : Stats D K) (p : Vec D K) : Nat :=
  (List.finRange D).foldl (fun part dim => part ||| ((decide (p dim > stats.mid dim)).toNat <<< dim.val)) 0

/-- Initial parts of the d-way splitter. (src/lib/Partitioner.cpp:17-27) -/
def dWayInit (stats : Stats D K) : List (Partition D K) :=
  (List.range (2 ^ D)).map fun i =>
    ⟨i, ∅, ⟨fun d => if i &&& (1 <<< d.val) ≠ 0 then stats.mid d else stats.min d,
            fun d => if i &&& (1 <<< d.val) ≠ 0 then stats.max d else stats.mid d⟩⟩

/-- `dWayPartitioner::partition`. (src/lib/Partitioner.cpp:3-60) -/
def dWay (stats : Stats D K) (pts : Nat → Vec D K) (ids : List Nat) (ignoreInf : Bool) :
    Option (List (Partition D K)) :=
  (distribute D (fun id => some (dWayPart stats (pts id))) ids (dWayInit stats)).map
    (addInfinite D ignoreInf)

/-- `uint part = (p.coords[k] > stats.mid[k])`; `none`: `k` is out of bounds.
(src/lib/Partitioner.cpp:99, 150, 234) -/
def twoPart (stats : Stats D K) (k : Nat) (p : Vec D K) : Option Nat :=
  if h : k < D then some (if p ⟨k, h⟩ > stats.mid ⟨k, h⟩ then 1 else 0) else none

/-- The two parts with their bounds. (src/lib/Partitioner.cpp:76-88, 167-179, 251-263) -/
def twoInit (stats : Stats D K) (k : Nat) : List (Partition D K) :=
  [⟨0, ∅, ⟨fun d => stats.min d, fun d => if d.val = k then stats.mid d else stats.max d⟩⟩,
   ⟨1, ∅, ⟨fun d => if d.val = k then stats.mid d else stats.min d, fun d => stats.max d⟩⟩]

/-- Split at the middle of dimension `k`; the code of the three remaining splitters apart from the
choice of `k`. (src/lib/Partitioner.cpp:62-118, 120-191, 193-275) -/
def twoWay (stats : Stats D K) (k : Nat) (pts : Nat → Vec D K) (ids : List Nat) (ignoreInf : Bool) :
    Option (List (Partition D K)) :=
  (distribute D (fun id => twoPart stats k (pts id)) ids (twoInit stats k)).map
    (addInfinite D ignoreInf)

/-- `OneDimPartitioner::partition`. (src/lib/Partitioner.cpp:62-118) -/
def oneDim (k : Nat) (stats : Stats D K) (pts : Nat → Vec D K) (ids : List Nat) (ignoreInf : Bool) :
    Option (List (Partition D K)) := twoWay stats k pts ids ignoreInf

/-- The splitting dimension of `CyclePartitioner`: `provenance.size()` is a `size_t`, so the
subtraction wraps for an empty string. (src/lib/Partitioner.cpp:129) -/
def cycleDim (D : Nat) (provenanceSize : Nat) : Nat :=
  ((provenanceSize + 2 ^ 64 - 1) % 2 ^ 64) % D

/-- `CyclePartitioner::partition`. (src/lib/Partitioner.cpp:120-191) -/
def cycle (provenanceSize : Nat) (stats : Stats D K) (pts : Nat → Vec D K) (ids : List Nat)
    (ignoreInf : Bool) : Option (List (Partition D K)) :=
  twoWay stats (cycleDim D provenanceSize) pts ids ignoreInf

/-- The loop of `ExtendPartitioner` over the dimensions; `none` stands for `maxDim = -1`.
(src/lib/Partitioner.cpp:201-210) -/
def extendLoop (stats : Stats D K) : List (Fin D) → K → Option (Fin D) → Option (Fin D)
  | [], _, m => m
  | d :: ds, e, m =>
    if stats.max d - stats.min d > e then extendLoop stats ds (stats.max d - stats.min d) (some d)
    else extendLoop stats ds e m

/-- `k = static_cast<uint>(maxDim)`; -1 becomes 2^32 - 1. (src/lib/Partitioner.cpp:213) -/
def extendDim (stats : Stats D K) : Nat :=
  match extendLoop stats (List.finRange D) 0 none with
  | some d => d.val
  | none => 2 ^ 32 - 1

/-- `ExtendPartitioner::partition`. (src/lib/Partitioner.cpp:193-275) -/
def extend (stats : Stats D K) (pts : Nat → Vec D K) (ids : List Nat) (ignoreInf : Bool) :
    Option (List (Partition D K)) := twoWay stats (extendDim stats) pts ids ignoreInf

end Part
end Verif
