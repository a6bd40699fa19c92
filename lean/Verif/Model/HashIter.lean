import Verif.Model.Res

/-!
# Model of the hash container iterators and TBB ranges

`/repo/include/datastructures/LP_Set.hxx` lines 65-246 (`_detail::iterator`,
`_detail::range_type`), used by LP_Set, LP_Map, LP_MultiMap and their concurrent versions.
The container is represented by its slot array (0 = free slot), `capacity()` is its length.
-/
namespace Verif
namespace HashIter

/-- `_advance(true)`, LP_Set.hxx:162-164. -/
def advanceTest (arr : List Nat) (idx : Nat) : Nat :=
  if h : idx < arr.length then
    if arr[idx] = 0 then advanceTest arr (idx + 1) else idx
  else idx
termination_by arr.length - idx

/-- `_advance(false)`, i.e. `operator++`, LP_Set.hxx:165-167 and 84-87: increments, then skips free
slots. -/
def next (arr : List Nat) (idx : Nat) : Nat := advanceTest arr (idx + 1)

/-- `begin()`, LP_Set.hxx:445-447. -/
def begin (arr : List Nat) : Nat := advanceTest arr 0

/-- `end()`, LP_Set.hxx:449-451. -/
def «end» (arr : List Nat) : Nat := arr.length

/-- A loop `for (it = b; it != e; ++it) visit(*it)`; `operator*` (145) reads `at(m_idx)`, which is
out of bounds (undefined) at or behind the end of the array. Returns the visited values. -/
def forLoop (arr : List Nat) : Nat → Nat → Nat → Res (List Nat)
  | 0, _, _ => .timeout
  | fuel + 1, b, e =>
    if b = e then .done []
    else match arr[b]? with
      | none => .ub
      | some v => (forLoop arr fuel (next arr b) e).bind fun vs => .done (v :: vs)

/-- `range_type`, LP_Set.hxx:184-190. -/
structure Range where
  b : Nat
  e : Nat
  mid : Nat
  grain : Nat
  deriving Repr, DecidableEq

/-- `set_midpoint`, LP_Set.hxx:238-244, with `iterator::half` (147-149, 155-159). -/
def setMidpoint (arr : List Nat) (r : Range) : Range :=
  if r.b = r.e then { r with mid := r.e }
  else { r with mid := advanceTest arr (r.b + (r.e - r.b) / 2) }

/-- `range_type(container, grainsize)`, LP_Set.hxx:217-224. -/
def Range.init (arr : List Nat) (grain : Nat) : Range :=
  setMidpoint arr { b := begin arr, e := «end» arr, mid := begin arr, grain := grain }

/-- `is_divisible`, LP_Set.hxx:198-200. -/
def Range.isDivisible (r : Range) : Bool :=
  decide (r.b < r.mid) && decide (r.mid < r.e) && decide (r.grain ≤ r.e - r.b)

/-- Splitting constructor, LP_Set.hxx:203-214: the new range, which takes the left part. -/
def Range.splitNew (arr : List Nat) (r : Range) : Range :=
  setMidpoint arr { b := r.b, e := r.mid, mid := r.b, grain := r.grain }

/-- Splitting constructor, LP_Set.hxx:210-213: the old range, which keeps the right part. -/
def Range.splitOld (arr : List Nat) (r : Range) : Range :=
  setMidpoint arr { r with b := r.mid }

/-- The sets of ranges a TBB scheduler may end up with: any number of splits, each permitted by
`is_divisible` (TBB range concept; the scheduler itself is not modelled). (include/datastructures/LP_Set.hxx:184-245) -/
inductive Splits (arr : List Nat) : Range → List Range → Prop where
  | leaf (r : Range) : Splits arr r [r]
  | node (r : Range) (xs ys : List Range) : r.isDivisible = true →
      Splits arr (r.splitNew arr) xs → Splits arr (r.splitOld arr) ys → Splits arr r (xs ++ ys)

/-- Execute the body over a list of ranges (in any order, see the theorem), collecting the visited
values. (include/datastructures/LP_Set.hxx:68-181, 226-232) -/
def visitAll (arr : List Nat) (fuel : Nat) : List Range → Res (List Nat)
  | [] => .done []
  | r :: rs => (forLoop arr fuel r.b r.e).bind fun vs =>
      (visitAll arr fuel rs).bind fun ws => .done (vs ++ ws)

end HashIter
end Verif
