import Verif.Model.DC
import Verif.Model.Simplex
import Verif.Model.GeomCore

/-!
# Cross check, verification and fingerprint of triangulations

`/repo/src/lib/Geometry.cpp` lines 758-1155: `dSimplices::crossCheck`, `verify`, `genFingerprint`.

The order in which the valid simplices are visited (`this->range()`, the filtered iterators of
`BlockedArray2`) is an argument of the functions, as is the order of the entries of the concurrent multimaps.
The parallel loops only write to the report, protected by a mutex; the model processes the chunks of the
range one after another. `none` stands for an access to a simplex or point without storage.
Fingerprints are those computed by `genFingerprint` from the vertices.
-/
namespace Verif
namespace DC

/-- `equal_range` of a multimap. (src/lib/Geometry.cpp:813, 863, 1016, 1065) -/
def eqRange (map : List (BitVec 32 × Nat)) (k : BitVec 32) : List Nat :=
  (map.filter fun p => decide (p.1 = k)).map fun p => p.2

/-! ### crossCheck -/

/-- `CrossCheckReport`; the simplices are represented by their numbers. (include/Geometry.h:969-974) -/
structure CrossReport where
  valid : Bool
  missing : List Nat
  invalid : List Nat
deriving DecidableEq, Repr

/-- Entries of the lookup map for the simplices `l` of a triangulation. (src/lib/Geometry.cpp:772-784) -/
def lookupOf (hash : Nat → BitVec 32) (T : Tri) (l : List Nat) : List (BitVec 32 × Nat) :=
  l.map fun a => (fpOf hash (T.vs a), T.id a)

/-- Search of a simplex of `O` with the vertices `vs`. (src/lib/Geometry.cpp:812-820, 861-869) -/
def findSimplex (hash : Nat → BitVec 32) (O : Tri) (map : List (BitVec 32 × Nat)) (vs : List Nat) : Option Nat :=
  (eqRange map (fpOf hash vs)).find? fun i => decide (i ≠ sINF) && O.contains i && equalVs hash (O.vs i) vs

/-- Search among the neighbours of my simplex. (src/lib/Geometry.cpp:836-842) -/
def nbFound (hash : Nat → BitVec 32) (T : Tri) (vs : List Nat) : List Nat → Option Bool
  | [] => some false
  | nn :: l =>
    if nn = sINF then nbFound hash T vs l
    else if nn ∈ T.range then if equalVs hash (T.vs nn) vs then some true else nbFound hash T vs l
    else none

/-- Loop over the neighbours of the real simplex; `some false`: one was not found.
(src/lib/Geometry.cpp:831-851) -/
def nbCheck (hash : Nat → BitVec 32) (T R : Tri) (mine : List Nat) : List Nat → Option Bool
  | [] => some true
  | n :: l =>
    if n = sINF then nbCheck hash T R mine l
    else if n ∈ R.range then
      match nbFound hash T (R.vs n) mine, nbCheck hash T R mine l with
      | some f, some r => some (f && r)
      | _, _ => none
    else none

/-- Body of the parallel loop over the real simplices for one chunk: a missing simplex ends the chunk
(`return`). (src/lib/Geometry.cpp:808-853) -/
def crossChunk (hash : Nat → BitVec 32) (T R : Tri) (map : List (BitVec 32 × Nat)) :
    List Nat → CrossReport → Option CrossReport
  | [], rep => some rep
  | r :: l, rep =>
    match findSimplex hash T map (R.vs r) with
    | none => some { rep with valid := false, missing := rep.missing ++ [r] }
    | some m =>
      match nbCheck hash T R (T.ns m) (R.ns r) with
      | none => none
      | some ok => crossChunk hash T R map l { rep with valid := rep.valid && ok }

/-- The parallel loop over the real simplices. (src/lib/Geometry.cpp:803-854) -/
def crossReal (hash : Nat → BitVec 32) (T R : Tri) (map : List (BitVec 32 × Nat)) :
    List (List Nat) → CrossReport → Option CrossReport
  | [], rep => some rep
  | c :: cs, rep => match crossChunk hash T R map c rep with
    | none => none
    | some rep' => crossReal hash T R map cs rep'

/-- The loop over my simplices. (src/lib/Geometry.cpp:857-881) -/
def crossMine (hash : Nat → BitVec 32) (T R : Tri) (map : List (BitVec 32 × Nat)) :
    List Nat → CrossReport → CrossReport
  | [], rep => rep
  | a :: l, rep =>
    match findSimplex hash R map (T.vs a) with
    | none => crossMine hash T R map l { rep with valid := false, invalid := rep.invalid ++ [a] }
    | some _ => crossMine hash T R map l rep

/-- `crossCheck` of `T` against the real triangulation `R`: `mine` are the simplices of `T`, `chunks` the
chunks in which those of `R` are processed, `map` the lookup map. (src/lib/Geometry.cpp:758-896) -/
def crossCheck (hash : Nat → BitVec 32) (T R : Tri) (map : List (BitVec 32 × Nat)) (mine : List Nat)
    (chunks : List (List Nat)) : Option CrossReport :=
  (crossReal hash T R map chunks ⟨decide (mine.length = chunks.flatten.length), [], []⟩).map
    (crossMine hash T R map mine)

/-! ### verify -/

/-- Offset and number of finite points of a `dPoints` container. (include/datastructures/VectorAdapter2.hxx:18-19,
85-91) -/
structure PtsBox where
  offset : Nat
  fsize : Nat

/-- `dPoints::contains`; an infinite id is always contained (C34). (include/Geometry.h:309-317) -/
def PtsBox.contains (D : Nat) (P : PtsBox) (i : Nat) : Bool :=
  if Part.isFinite D i then decide (P.offset < i) && decide (i - P.offset < P.fsize) else true

/-- `operator[]` accesses an existing element. (include/datastructures/VectorAdapter2.hxx:43-54) -/
def PtsBox.readable (D : Nat) (P : PtsBox) (i : Nat) : Bool :=
  if Part.isFinite D i then decide (P.offset ≤ i) && decide (i - P.offset < P.fsize) else true

/-- `dPoints::operator==` with the set of used points. (include/Geometry.h:324-339; `size()`:
include/datastructures/VectorAdapter2.hxx:85-87) -/
def PtsBox.eqUsed (D : Nat) (P : PtsBox) (used : Finset Nat) : Bool :=
  decide (P.fsize + 2 ^ D - 1 = used.card) && decide (∀ p ∈ used, P.contains D p = true)

/-- `usedPoints`. (src/lib/Geometry.cpp:914-917) -/
def usedPts (T : Tri) (l : List Nat) : Finset Nat := (l.flatMap T.vs).toFinset

/-- Check of the points. (src/lib/Geometry.cpp:918-966) -/
def pointsCheck (D : Nat) (P : PtsBox) (ids : Option (Finset Nat)) (used : Finset Nat) : Option Bool :=
  if P.eqUsed D used then some true
  else match ids with
    | some ids =>
      if ∀ i ∈ ids, P.readable D i = true then
        some (decide (∀ i ∈ ids, i ∈ used ∨ Part.isFinite D i = false) &&
          decide (∀ p ∈ used, Part.isFinite D p = true → p ∈ ids))
      else none
    | none =>
      if ∀ i ∈ Finset.range P.fsize, P.readable D i = true then
        some (decide (∀ i ∈ Finset.range P.fsize, i ∈ used ∨ Part.isFinite D i = false) &&
          decide (∀ p ∈ used, Part.isFinite D p = true → P.contains D p = true))
      else none

/-- Simplices that should be in the hull list but are not. (src/lib/Geometry.cpp:970-981) -/
def hullMissing (D : Nat) (T : Tri) (l : List Nat) : List Nat :=
  l.filter fun s => !vsFinite D (T.vs s) && !T.hull.contains (T.id s)

/-- Simplices of the hull list that are finite. (src/lib/Geometry.cpp:983-997) -/
def hullWrong (D : Nat) (T : Tri) : Option (List Nat) :=
  if T.hull.all fun i => decide (i ∈ T.range) then some (T.hull.filter fun i => vsFinite D (T.vs i)) else none

/-- Search for duplicates. (src/lib/Geometry.cpp:1002-1038) -/
def dupPairs (hash : Nat → BitVec 32) (T : Tri) (l : List Nat) : Option (List (Nat × Nat)) :=
  let map := lookupOf hash T l
  if map.all fun p => decide (p.2 ∈ T.range) then
    some (l.flatMap fun a => ((eqRange map (fpOf hash (T.vs a))).filter fun b =>
      !(equalVs hash (T.vs a) (T.vs b) == (T.id a == T.id b))).map fun b => (a, b))
  else none

/-- `isNeighbor`. (include/Geometry.h:604-612) -/
def isNb (D : Nat) (a b : List Nat) : Bool := Simplex.shared a b == D

/-- `faceLookup`. (src/lib/Geometry.cpp:1045-1056) -/
def faceLookup (D : Nat) (hash : Nat → BitVec 32) (T : Tri) (l : List Nat) : List (BitVec 32 × Nat) :=
  l.flatMap fun a => (List.range (D + 1)).map fun i => (faceKey hash (T.vs a) i, T.id a)

/-- Condition for a wrong neighbour relation. (src/lib/Geometry.cpp:1078-1090) -/
def wrongPair (D : Nat) (T : Tri) (a b : Nat) : Bool :=
  (isNb D (T.vs a) (T.vs b) &&
    (!isNb D (T.vs b) (T.vs a) || !(T.ns a).contains (T.id b) || !(T.ns b).contains (T.id a))) ||
  (!isNb D (T.vs a) (T.vs b) &&
    (isNb D (T.vs b) (T.vs a) || (T.ns a).contains (T.id b) || (T.ns b).contains (T.id a)))

/-- Check of the neighbours. (src/lib/Geometry.cpp:1059-1100) -/
def wrongNbs (D : Nat) (hash : Nat → BitVec 32) (T : Tri) (l : List Nat) : Option (List (Nat × Nat)) :=
  let map := faceLookup D hash T l
  if map.all fun p => decide (p.2 ∈ T.range) then
    some (l.flatMap fun a => (List.range (D + 1)).flatMap fun i =>
      ((eqRange map (faceKey hash (T.vs a) i)).filter fun b => wrongPair D T a b).map fun b => (a, b))
  else none

/-- Vertices of `nn` that are tested against the circumsphere of `s`. (src/lib/Geometry.cpp:1118-1121) -/
def testPts (D : Nat) (T : Tri) (s nn : Nat) : List Nat :=
  (T.vs nn).filter fun p => Part.isFinite D p && !Simplex.containsVs p (T.vs s)

/-- Neighbours of `s` that are visited. (src/lib/Geometry.cpp:1113-1117) -/
def finNs (T : Tri) (s : Nat) : List Nat := (T.ns s).filter fun n => decide (n ≠ sINF)

/-- Check of the circumspheres: pairs of a simplex and a point inside. `inSph vs p` is `inSphere`.
(src/lib/Geometry.cpp:1104-1131) -/
def inCircle (D : Nat) (inSph : List Nat → Nat → Bool) (P : PtsBox) (T : Tri) (l : List Nat) :
    Option (List (Nat × Nat)) :=
  if l.all fun s => (finNs T s).all fun n => decide (n ∈ T.range) && (testPts D T s n).all (P.readable D) then
    some (l.flatMap fun s => (finNs T s).flatMap fun n =>
      ((testPts D T s n).filter fun p => inSph (T.vs s) p).map fun p => (s, p))
  else none

/-- `VerificationReport`. (include/Geometry.h:976-984) -/
structure VerifyReport where
  valid : Bool
  duplicates : List (Nat × Nat)
  wrongNeighbors : List (Nat × Nat)
  inCircle : List (Nat × Nat)
deriving DecidableEq, Repr

/-- `verify(points, pointIds)`; `l` are the simplices of `T` in the order of the iteration.
(src/lib/Geometry.cpp:898-1137) -/
def verify (D : Nat) (hash : Nat → BitVec 32) (inSph : List Nat → Nat → Bool) (P : PtsBox)
    (ids : Option (Finset Nat)) (T : Tri) (l : List Nat) : Option VerifyReport :=
  match pointsCheck D P ids (usedPts T l), hullWrong D T, dupPairs hash T l, wrongNbs D hash T l,
    inCircle D inSph P T l with
  | some ok, some hw, some dups, some nbs, some circ =>
    some ⟨ok && (hullMissing D T l).isEmpty && hw.isEmpty && dups.isEmpty && nbs.isEmpty && circ.isEmpty,
      dups, nbs, circ⟩
  | _, _, _, _, _ => none

section
variable {K : Type} [Field K] [LinearOrder K]

/-- `dSimplex<2>::inSphere`. (include/Geometry.h:580-585, 1024-1030) -/
def inSph2 (pts : Nat → Vec 2 K) (vs : List Nat) (p : Nat) : Bool :=
  Geom.inSphere2 (pts p) (pts (vs.getD 0 0)) (pts (vs.getD 1 0)) (pts (vs.getD 2 0))

/-- `dSimplex<3>::inSphere`. (include/Geometry.h:580-585, 1080-1087) -/
def inSph3 (pts : Nat → Vec 3 K) (vs : List Nat) (p : Nat) : Bool :=
  Geom.inSphere3 (pts p) (pts (vs.getD 0 0)) (pts (vs.getD 1 0)) (pts (vs.getD 2 0)) (pts (vs.getD 3 0))

end

/-! ### genFingerprint -/

/-- Body of the loop of `genFingerprint`. (src/lib/Geometry.cpp:1145-1150) -/
def xorInto (h : BitVec 32) (a : Nat → BitVec 32) : Nat → BitVec 32 :=
  Function.update a (h &&& 0xFF#32).toNat (a (h &&& 0xFF#32).toNat ^^^ h)

/-- `dSimplices::genFingerprint`. (src/lib/Geometry.cpp:1139-1155) -/
def genFp (hash : Nat → BitVec 32) (T : Tri) (l : List Nat) : Nat → BitVec 32 :=
  l.foldl (fun a s => xorInto (fpOf hash (T.vs s)) a) fun _ => 0#32

end DC
end Verif
