import Verif.Model.Simplex
import Verif.Model.Res

/-!
# The containers of points

`VectorAdapter2` (`/repo/include/datastructures/VectorAdapter2.hxx`), from which `dPoints` is derived, and the older
`VectorAdapter` (`/repo/include/datastructures/VectorAdapter.hxx`), which no file includes any more. Sizes and offsets are
64-bit numbers. `max` is `max_size()` of the vector: growing beyond it throws, which is `ub` here, as is an access
for which `std::vector::at` throws.
-/
namespace Verif
namespace PointId

/-- A vector with an offset. (include/datastructures/VectorAdapter2.hxx:11, 18-19, 190-191) -/
structure Cont (α : Type) where
  offset : BitVec 64
  vec : List α
  deriving DecidableEq

/-- `std::vector::resize`; `z` is a value initialized element. -/
def resize {α : Type} (max : Nat) (z : α) (v : List α) (n : Nat) : Res (List α) :=
  if n ≤ max then .done (v.take n ++ List.replicate (n - v.length) z) else .ub

/-- `reserveUpToIdx`. (include/datastructures/VectorAdapter2.hxx:118-121) -/
def reserveUpToIdx {α : Type} (max : Nat) (z : α) (c : Cont α) (size : BitVec 64) : Res (Cont α) :=
  let n := (size - c.offset).toNat
  if c.vec.length = 0 ∨ n > c.vec.length then (resize max z c.vec n).bind fun v => .done { c with vec := v }
  else .done c

/-- The constructor of `dPoints`: the entry 0 exists. (include/Geometry.h:241-250) -/
def newPoints {α : Type} (z : α) : Cont α := ⟨0#64, [z]⟩

/-- `PointGenerator::generate`, for the container. (include/utils/Generator.h:24-34) -/
def generated {α : Type} (max : Nat) (z : α) (n : BitVec 64) : Res (Cont α) :=
  reserveUpToIdx max z (newPoints z) (n + 1#64)

/-- `loadFromFile`, for the container: every line is appended. (include/Geometry.h:255-303) -/
def loaded {α : Type} (z : α) (lines : List α) : Cont α :=
  { newPoints z with vec := (newPoints z).vec ++ lines }

/-- The bounds and ids of the container in the sense of `Model/Simplex`. -/
def Cont.points {α : Type} (c : Cont α) : Points := ⟨c.offset, BitVec.ofNat 64 c.vec.length⟩

/-- The number of points of the report: `finite_size()`. (include/load_balancing/Experiment.h:124;
include/datastructures/VectorAdapter2.hxx:89-91) -/
def numpoints {α : Type} (c : Cont α) : Nat := c.vec.length

/-! ### `VectorAdapter`: the infinite elements are the last ones of the vector -/

/-- `finite_size`. (include/datastructures/VectorAdapter.hxx:92-94) -/
def oldFiniteSize {α : Type} (D : Nat) (c : Cont α) : BitVec 64 := BitVec.ofNat 64 c.vec.length - nINF D

/-- `_infIdx`. (include/datastructures/VectorAdapter.hxx:148-151) -/
def oldInfIdx {α : Type} (D : Nat) (c : Cont α) (i : BitVec 64) : BitVec 64 :=
  BitVec.ofNat 64 c.vec.length - nINF D + infIndex D i

/-- `contains`: the result of the conditional expression, converted to a number, is compared with the size.
(include/datastructures/VectorAdapter.hxx:22-26) -/
def oldContains {α : Type} (D : Nat) (c : Cont α) (i : BitVec 64) : Bool :=
  let x : BitVec 64 :=
    if isFinite D i then
      (if decide (c.offset ≤ i) && decide (i - c.offset < oldFiniteSize D c) then 1#64 else 0#64)
    else oldInfIdx D c i
  decide (x < BitVec.ofNat 64 c.vec.length)

/-- `at` without assertions. (include/datastructures/VectorAdapter.hxx:56-66) -/
def oldAt {α : Type} (D : Nat) (c : Cont α) (i : BitVec 64) : Res α :=
  let k := if isFinite D i then (i - c.offset).toNat else (oldInfIdx D c i).toNat
  match c.vec[k]? with
  | some a => .done a
  | none => .ub

end PointId
end Verif
