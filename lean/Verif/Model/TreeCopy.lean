import Verif.Model.Res

/-!
# Copies and moves of AABB trees

`/repo/include/datastructures/AABBTree.h`: the copy constructor (41-51), the move constructor (53-58) and the queries
(136-170) of `TreeNode` on the level of the memory. `Node` of `Model/Grid.lean` is a tree without addresses; here a node
is an object that refers to its children with `std::unique_ptr`.

Simplifications: the bounds and the cell size are one value `val`; the array `children` is a function on the
positions; addresses are numbers and an allocation takes the number `next`; no memory is released. The value of a
member that is not initialised is `none`.
-/
namespace Verif
namespace TreeMem

/-- The members of `TreeNode`. (include/datastructures/AABBTree.h:202-207) -/
structure Obj (β : Type) where
  val : β
  n : Int
  ch : Nat → Option Nat

/-- The memory: the objects made with `std::make_unique`. (include/datastructures/AABBTree.h:18, 48) -/
structure Heap (β : Type) where
  next : Nat
  mem : Nat → Option (Obj β)

variable {β : Type}

/-- `std::make_unique` with a new object. (include/datastructures/AABBTree.h:48) -/
def Heap.alloc (h : Heap β) (o : Obj β) : Heap β × Nat :=
  (⟨h.next + 1, fun a => if a = h.next then some o else h.mem a⟩, h.next)

/-- `*children[i]`: a null pointer or a pointer to no object is undefined behaviour.
(include/datastructures/AABBTree.h:48, 147, 166) -/
def deref (m : Nat → Option (Obj β)) (p : Option Nat) : Res (Obj β) :=
  match p with
  | none => .ub
  | some a => match m a with
    | none => .ub
    | some o => .done o

/-- The loop of the copy constructor from position `i`, `k` positions remain; `copy` is the recursive call.
(include/datastructures/AABBTree.h:47-49) -/
def copyLoop (copy : Heap β → Obj β → Res (Heap β × Obj β)) (other : Obj β) :
    Nat → Nat → Heap β → Obj β → Res (Heap β × Obj β)
  | 0, _, h, o => .done (h, o)
  | k + 1, i, h, o =>
    (deref h.mem (other.ch i)).bind fun c =>
      (copy h c).bind fun r =>
        let a := r.1.alloc r.2
        copyLoop copy other k (i + 1) a.1 { o with ch := fun j => if j = i then some a.2 else o.ch j }

/-- The copy constructor, with a bound for the depth of the recursion. The array starts with null pointers; no
position is visited with `nChildren = -1`. (include/datastructures/AABBTree.h:41-51) -/
def copy : Nat → Heap β → Obj β → Res (Heap β × Obj β)
  | 0 => fun _ _ => .timeout
  | f + 1 => fun h other => copyLoop (copy f) other other.n.toNat 0 h ⟨other.val, other.n, fun _ => none⟩

/-- `for` over the children in `intersects`. (include/datastructures/AABBTree.h:146-149) -/
def hitsLoop (hits : Obj β → Res Bool) (m : Nat → Option (Obj β)) (o : Obj β) : Nat → Nat → Res Bool
  | 0, _ => .done false
  | k + 1, i => (deref m (o.ch i)).bind fun c =>
      (hits c).bind fun b => if b then .done true else hitsLoop hits m o k (i + 1)

/-- `TreeNode::intersects`; `p` is the test of the sphere and the bounds. (include/datastructures/AABBTree.h:136-154) -/
def hits (p : β → Bool) (m : Nat → Option (Obj β)) : Nat → Obj β → Res Bool
  | 0, _ => .timeout
  | f + 1, o =>
    if !p o.val then .done false
    else if o.n = -1 then .done true
    else hitsLoop (hits p m f) m o o.n.toNat 0

/-- An object during its construction: a member without a value is `none`. The array of `std::unique_ptr` is
always initialised. (include/datastructures/AABBTree.h:53, 204-207) -/
structure Raw (β : Type) where
  val : Option β
  n : Option Int
  ch : Nat → Option Nat

/-- `std::swap` of two members of a type without constructors: both values are read, and reading a value that was
never written is undefined. (include/datastructures/AABBTree.h:54-56) -/
def swap {α : Type} (a b : Option α) : Res (Option α × Option α) :=
  match a, b with
  | some x, some y => .done (some y, some x)
  | _, _ => .ub

/-- The body shared by the move constructor and the move assignment: the new `this` and the new `other`.
(include/datastructures/AABBTree.h:54-57, 73-76) -/
def swapAll (this other : Raw β) : Res (Raw β × Raw β) :=
  (swap this.val other.val).bind fun v =>
    (swap this.n other.n).bind fun n =>
      .done (⟨v.1, n.1, other.ch⟩, ⟨v.2, n.2, this.ch⟩)

/-- A finished object as the source or the target of a move. -/
def Obj.raw (o : Obj β) : Raw β := ⟨some o.val, some o.n, o.ch⟩

/-- The move constructor: it has no initialisers, the members of `this` have no value before the body.
(include/datastructures/AABBTree.h:53-58; called by include/load_balancing/AccurateGridIntersectionChecker.h:46 and
138-142) -/
def moveCtor (other : Obj β) : Res (Raw β × Raw β) := swapAll ⟨none, none, fun _ => none⟩ other.raw

/-- The move assignment. (include/datastructures/AABBTree.h:72-79) -/
def moveAssign (this other : Obj β) : Res (Raw β × Raw β) := swapAll this.raw other.raw

end TreeMem
end Verif
