import Verif.Model.DC
import Verif.Model.Misc
import Verif.Model.Conc
import Mathlib.Order.Interval.Finset.Nat

/-!
# Collecting the result of the base triangulator

`/repo/src/lib/CGALTriangulator.cpp` lines 301-368 (`_delaunayCgal`). The triangulation computed by CGAL is
input of the model: its finite cells in the order of the iterator.
-/
namespace Verif
namespace DC

/-- A finite cell of the CGAL triangulation: number assigned by the index handler, the point ids of its
vertices, and the numbers of its neighbours (`none`: an infinite cell); `ns[d]` is opposite of `vs[d]`. (src/lib/CGALTriangulator.cpp:336-345) -/
structure Cell where
  mid : Nat
  vs : List Nat
  ns : List (Option Nat)
deriving DecidableEq

/-- Neighbour ids of the simplex. (src/lib/CGALTriangulator.cpp:344-345) -/
def Cell.nbrs (start : Nat) (c : Cell) : List Nat :=
  c.ns.map fun n => match n with
    | none => sINF
    | some m => (start + m) % 2 ^ 64

/-- The id of the simplex. (src/lib/CGALTriangulator.cpp:338) -/
def Cell.sid (start : Nat) (c : Cell) : Nat := (start + c.mid) % 2 ^ 64

/-- Body of the loop; `none` for access outside of the allocated block.
(src/lib/CGALTriangulator.cpp:336-363) -/
def collectCell (D start : Nat) (T : Tri) (c : Cell) : Option Tri :=
  let a := c.sid start
  match Misc.sortWithData c.vs (c.nbrs start) with
  | none => none
  | some r =>
    let hull := if vsFinite D r.1 then T.hull else T.hull ++ [a]
    if a ∈ T.range then
      some { T with id := Function.update T.id a a, vs := Function.update T.vs a r.1,
                    ns := Function.update T.ns a r.2, mks := Function.update T.mks a 0, hull := hull }
    else none

/-- The loop. (src/lib/CGALTriangulator.cpp:336-364) -/
def collectLoop (D start : Nat) : Tri → List Cell → Option Tri
  | T, [] => some T
  | T, c :: cs => match collectCell D start T c with
    | none => none
    | some T' => collectLoop D start T' cs

/-- `_delaunayCgal` after the call of CGAL: `start` is the result of `simplexID.fetch_add(lastId)`.
(src/lib/CGALTriangulator.cpp:325-366) -/
def collect (D start lastId : Nat) (cells : List Cell) : Option Tri :=
  collectLoop D start
    { range := Finset.Ico start ((start + lastId) % 2 ^ 64), id := fun _ => sINF, vs := fun _ => [],
      ns := fun _ => [], mks := fun _ => 0, hull := [], mark := 0 } cells

/-- The counter `simplexID`: an operation is `fetch_add(lastId)`, a single atomic step.
(src/lib/CGALTriangulator.cpp:328, include/Geometry.h:959, src/lib/Geometry.cpp:21) -/
def counter : Conc.Obj Nat Nat Nat Nat where
  start := fun n => n
  step := fun s n => some ((s + n) % 2 ^ 64, .inr s)

end DC
end Verif
