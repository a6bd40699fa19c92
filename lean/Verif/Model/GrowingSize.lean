import Verif.Model.Growing

/-!
# `size()` of the handles of a growing set
-/
namespace Verif
namespace Growing

/-- `handle().size()` with a handle made for this call, as for the log of the border: the constructor takes the published table.
Simplification: no thread is inside an operation. (include/datastructures/Growing_LP.hxx:91-93, 148-154, 209-211, 287-293; LP_Set.hxx:650;
LoadBalancedDCTriangulator.tpp:648-661) -/
def sizeNew (s : Shared) : Option Nat := (s.tabs[s.tr]?).map (·.t.items)

/-- `size()` of a handle in use. The epoch of the writers is compared, but `getTable()` takes the published table; without running
threads the loop of `getTable()` ends after the first turn. (include/datastructures/Growing_LP.hxx:287-293, 339-345) -/
def size (s : Shared) (h : Nat) : Option Nat :=
  match s.hs[h]? with
  | none => none
  | some (le, lt) => (s.tabs[if s.ew > le then s.tr else lt]?).map (·.t.items)

end Growing
end Verif
