import Verif.Model.GeomCore
import Verif.Model.Res

/-!
# Point location (include/Geometry.h:838-898)

`dSimplices::findNearestSimplex`. The slots of the blocks are a partial function from ids. The results of the geometric
predicates for the searched point are the functions `inS` and `dist`. The priority queue is a list, of which any element with
the smallest distance may be the top.
-/
namespace Verif
namespace Locate
variable {D : Nat} {K : Type} [LinearOrder K]

/-- A slot of the array: the members of `dSimplex` that are used here; `none` is `cINF`. (include/Geometry.h:659-661) -/
structure Slot (D : Nat) where
  id : Option Nat
  verts : Fin (D + 1) → Nat
  nbrs : Fin (D + 1) → Option Nat

/-- The array of simplices and the point. `lo` and `hi` are `lowerBound()` and `upperBound()`, `top` is
`std::numeric_limits<Precision>::max()`. (include/Geometry.h:838-856) -/
structure Scene (D : Nat) (K : Type) where
  slot : Nat → Option (Slot D)
  lo : Nat
  hi : Nat
  top : K
  inS : (Fin (D + 1) → Nat) → Bool
  dist : (Fin (D + 1) → Nat) → Fin (D + 1) → K

/-- Local variables. (include/Geometry.h:848-856) -/
structure State (K : Type) where
  queue : List (K × Nat)
  marks : Nat → Bool
  minD : K
  minId : Option Nat

/-- Outcome of a round. (include/Geometry.h:859-898) -/
inductive Out (K : Type) where
  | running : State K → Out K
  | returned : Option Nat → Out K
  | ub : Out K

/-- Before the loop; `none` if the mark of the start simplex is out of the bit set. (include/Geometry.h:844-856) -/
def start (c : Scene D K) (hint : Option Nat) : Option (State K) :=
  let h := hint.getD c.lo
  if c.lo ≤ h ∧ h ≤ c.hi then
    some { queue := [(c.top, h)], marks := Function.update (fun _ => false) h true, minD := c.top, minId := none }
  else none

/-- One round of the loop over the neighbours. (include/Geometry.h:883-890) -/
def enqueue (c : Scene D K) (sl : Slot D) (s : Option (State K)) (d : Fin (D + 1)) : Option (State K) :=
  s.bind fun s => match sl.nbrs d with
    | none => some s
    | some n => if c.lo ≤ n ∧ n ≤ c.hi then
        if s.marks n then some s
        else some { s with marks := Function.update s.marks n true, queue := (c.dist sl.verts d, n) :: s.queue }
      else none

/-- Body of the main loop after `x` was removed from the queue. (include/Geometry.h:861-892) -/
def visit (c : Scene D K) (s : State K) (x : K × Nat) : Out K :=
  match c.slot x.2 with
  | none => .ub
  | some sl =>
    if c.inS sl.verts then .returned sl.id
    else
      let s := if x.1 < s.minD then { s with minD := x.1, minId := sl.id } else s
      match (List.finRange (D + 1)).foldl (enqueue c sl) (some s) with
      | none => .ub
      | some s => .running s

/-- One round of the main loop. (include/Geometry.h:859-897) -/
inductive Step (c : Scene D K) : State K → Out K → Prop
  | empty (s : State K) : s.queue = [] → Step c s (.returned s.minId)
  | pop (s : State K) (x : K × Nat) : x ∈ s.queue → (∀ y ∈ s.queue, x.1 ≤ y.1) → Step c s (visit c { s with queue := s.queue.erase x } x)

/-- The loop ends with the outcome. (include/Geometry.h:859-897) -/
inductive Ends (c : Scene D K) : State K → Out K → Prop
  | returned (s : State K) (r : Option Nat) : Step c s (.returned r) → Ends c s (.returned r)
  | ub (s : State K) : Step c s .ub → Ends c s .ub
  | more (s s' : State K) (o : Out K) : Step c s (.running s') → Ends c s' o → Ends c s o

/-- `findNearestSimplex(p, points, hint)` may have the outcome `o`. (include/Geometry.h:838-898) -/
def Find (c : Scene D K) (hint : Option Nat) (o : Out K) : Prop :=
  match start c hint with
  | none => o = .ub
  | some s => Ends c s o

/-- `findNearestVertex`; `dist i` is the squared distance to the vertex `i`. (include/Geometry.h:609-623) -/
def nearestVertex (top : K) (dist : Nat → K) (verts : Fin (D + 1) → Nat) : Option Nat :=
  ((List.finRange (D + 1)).foldl (fun (s : K × Option Nat) d =>
    if dist (verts d) < s.1 then (dist (verts d), some (verts d)) else s) (top, none)).2

end Locate
end Verif
