import Verif.Model.ConcMap

/-!
# Model of rehashing and merging concurrent maps

`/repo/include/datastructures/LP_Map.hxx` lines 369-428 (`unsafe_rehash` and both `unsafe_merge` of `Concurrent_LP_Map`). The parallel
loops call `insert` for every occupied slot and ignore what it returns. A loop is the set of its calls, made by any number of threads in
any order; reading the old slots does not interfere with the calls and is left out.
-/
namespace Verif
namespace ConcMap
open Conc

/-- The contents of the occupied slots, in their order. A value that was never written is left out; the theorems are about maps whose
occupied slots have values. (include/datastructures/LP_Map.hxx:379-380, 390-392) -/
def pairs (m : Shared) : List (Nat × Nat) :=
  (m.keys.zip m.vals).filterMap fun s => if s.1 = 0 then none else s.2.map fun v => (s.1, v)

/-- The calls of a loop. (include/datastructures/LP_Map.hxx:378-381, 389-393) -/
def calls (l : List (Nat × Nat)) : List MapOp := l.map fun x => .insert x.1 x.2

/-- The operations called in a history. -/
def called {n : Nat} (h : List (Ev n MapOp MapRet)) : List MapOp :=
  h.filterMap fun e => match e with
    | .inv _ op => some op
    | .res .. => none

/-- The number of returns in a history. -/
def returned {n : Nat} (h : List (Ev n MapOp MapRet)) : Nat :=
  h.countP fun e => match e with
    | .inv .. => false
    | .res .. => true

/-- States after `unsafe_rehash(newSize)` of the map `m`: a new table, and the loop has ended. (include/datastructures/LP_Map.hxx:369-382) -/
def Rehash {n : Nat} (m : Shared) (newSize : Nat) (c : Config n Shared Loc MapOp MapRet) : Prop :=
  Reach (obj m.a) (fun op => op ∈ calls (pairs m)) (new m.a newSize) c ∧ c.quiescent ∧ (called c.hist).Perm (calls (pairs m))

/-- The size requested for a merge. (include/datastructures/LP_Map.hxx:387, 401) -/
def mergeSize (m other : Shared) : Nat := (m.keys.length + other.keys.length) * 2

/-- States after `unsafe_merge(other)`: the calls of `unsafe_rehash` (`h1`) have returned before those for the slots of `other` (`h2`)
begin. (include/datastructures/LP_Map.hxx:385-394) -/
def Merge {n : Nat} (m other : Shared) (c : Config n Shared Loc MapOp MapRet) : Prop :=
  ∃ h1 h2, Reach (obj m.a) (fun op => op ∈ calls (pairs m ++ pairs other)) (new m.a (mergeSize m other)) c ∧ c.quiescent ∧ c.hist = h1 ++ h2 ∧
    returned h1 = (called h1).length ∧ (called h1).Perm (calls (pairs m)) ∧ (called h2).Perm (calls (pairs other))

/-- States after `unsafe_merge(other, filter)`: one loop for the slots of both maps whose key is not in the filter.
(include/datastructures/LP_Map.hxx:398-428) -/
def MergeFilter {n : Nat} (m other : Shared) (F : Nat → Bool) (c : Config n Shared Loc MapOp MapRet) : Prop :=
  Reach (obj m.a) (fun op => op ∈ calls (pairs m ++ pairs other)) (new m.a (mergeSize m other)) c ∧ c.quiescent ∧
    (called c.hist).Perm (calls ((pairs m ++ pairs other).filter fun x => !F x.1))

end ConcMap
end Verif
