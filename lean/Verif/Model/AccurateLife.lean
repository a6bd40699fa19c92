import Verif.Model.PTree

/-!
# Model of the point sets that accurate grid checkers refer to

`AccurateGridIntersectionChecker` keeps the address of the set of ids that its maker is called with
(`/repo/include/load_balancing/AccurateGridIntersectionChecker.h` 24-25, 42-49, 59, 141-143). This file models the addresses: where the
partitioners with a partition maker (`/repo/include/load_balancing/sample_partitioner`) keep the sets, and when the sets are destroyed.
Samples and boxes are left out: the part of a point is a parameter, and a checker is only its pointer.
-/
namespace Verif
namespace Life

/-- The sets of ids that have been constructed, by address; `none`: destroyed. (include/Geometry.h:49) -/
structure Mem where
  cells : List (Option (Finset Nat))

/-- Construction of a set at a new address. (include/Geometry.h:49) -/
def Mem.new (m : Mem) (s : Finset Nat) : Mem × Nat := (⟨m.cells ++ [some s]⟩, m.cells.length)

/-- Destruction of the set at an address. (include/Geometry.h:49) -/
def Mem.free (m : Mem) (a : Nat) : Mem := ⟨m.cells.set a none⟩

/-- Access to the set at an address; `none`: there is none, or it has been destroyed. (include/Geometry.h:49) -/
def Mem.get (m : Mem) (a : Nat) : Option (Finset Nat) := m.cells[a]?.join

/-- A checker: one for a box, or an accurate one for the ids of a part with the address of all ids.
(include/load_balancing/BoundsIntersectionChecker.h:8-25; AccurateGridIntersectionChecker.h:24-26, 42-49) -/
inductive Ref where
  | box
  | accurate (part : Finset Nat) (ids : Nat)

/-- `AccurateGridIntersectionChecker::intersects` with the address `a` of the ids. The set is accessed as soon as there is a cell, because
every cell of the table has a point. `none`: access to a destroyed set, or a cell without entry.
(include/load_balancing/AccurateGridIntersectionChecker.h:51-66) -/
def intersects {D : Nat} {K : Type} [Field K] [LinearOrder K] [FloorRing K] (m : Mem) (a : Nat) (w : K) (t : Node D K)
    (inCell : Grid.Index D → Option (List Nat)) (inSph : Nat → Bool) (s : Sphere D K) : Option Bool :=
  if (t.cells w s).isEmpty then some false
  else match m.get a with
    | none => none
    | some ids => Checker.accurate w t inCell ids inSph s

/-- The tree of the partitioners that assign all points to `n` parts, called with the ids at address `a`.
(include/load_balancing/sample_partitioner/NearestSamplePointAssigningSamplePartitioner.h:21-46, 93-112;
BoundsDistancePointAssigningSamplePartitioner.h:41-63, 80-96; CenterDistancePointAssigningSamplePartitioner.h:34-57, 79-94;
AccurateGridIntersectionChecker.h:108-147) -/
def assign (D n : Nat) (part : Nat → Nat) (m : Mem) (a : Nat) : Option (PTree Ref) := do
  let ids ← m.get a
  if ∀ i ∈ ids, Part.isFinite D i = true → part i < n then
    some (.node (some .box) ((List.range n).map fun j => .leaf (some (.accurate (Checker.partIds D ids part j) a)) (Checker.partIds D ids part j)))
  else none

/-- `makePartitioning` of the nearest sample point bipartitioner, called with the ids at address `a`. The sets of the two parts belong to the local
variable `tree`: the recursive calls get references to them (`std::move` does not move into a reference), and they are destroyed at the end.
The checkers of the parts have the address `a`.
(include/load_balancing/sample_partitioner/NearestSamplePointAssigningSampleBipartitioner.h:44-92) -/
def bipart (D cutoff : Nat) (part : List Bool → Nat → Bool) (n : Nat) (path : List Bool) (m : Mem) (a : Nat) : Option (Mem × PTree Ref) :=
  match m.get a with
  | none => none
  | some ids =>
    if 1 < n ∧ cutoff < ids.card then
      let left := Checker.partIds D ids (fun i => (part path i).toNat) 0
      let right := Checker.partIds D ids (fun i => (part path i).toNat) 1
      let (m1, la) := m.new left
      let (m2, ra) := m1.new right
      (bipart D cutoff part (n / 2) (path ++ [false]) m2 la).bind fun (m3, lt) =>
      (bipart D cutoff part (n / 2) (path ++ [true]) m3 ra).bind fun (m4, rt) =>
      some ((m4.free ra).free la, .node none [lt.setChk (some (.accurate left a)), rt.setChk (some (.accurate right a))])
    else some (m, .leaf (some .box) ids)
termination_by n
decreasing_by all_goals omega

end Life
end Verif
