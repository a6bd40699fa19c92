import Verif.Model.Res
import Mathlib.Data.Nat.Log

/-!
# Model of the sequential linear probing hash set

`/repo/include/datastructures/LP_Set.hxx` lines 26-39 (Hasher) and 252-507 (LP_Set).
-/
namespace Verif

/-- `Hasher::operator()`, LP_Set.hxx:34-36 (`a * x` on 64-bit unsigned integers; `K` is
`tIdType = std::uint64_t` or a narrower type, 64 bit is modelled). The multiplier `a` is drawn at
random among the odd numbers (29-32); the model leaves it arbitrary. -/
def hash64 (a x : Nat) : Nat := (a * x) % 2 ^ 64

/-- `idx &= m_arraySize - 1`, LP_Set.hxx:312, 336. The 64-bit subtraction makes the mask all-ones
for size 0. Simplification: sizes are mathematical integers (an array with 2^64 slots cannot be
allocated). -/
def maskIdx (cap idx : Nat) : Nat := if cap = 0 then idx else idx &&& (cap - 1)

/-- `nextPow2`, Misc.h:20-29, on mathematical integers: `nextPow2(0)` is 0, otherwise the least
power of two `≥ x`. The 64-bit shift loop is modelled in `Verif.Model.Misc` and proved to agree
with this function. -/
def nextPow2 (x : Nat) : Nat := if x = 0 then 0 else 2 ^ Nat.clog 2 x

/-- State of `LP_Set<K, Growing>`, LP_Set.hxx:459-464. `arr` is `m_array` (0 = free slot),
`m_arraySize` is its length. `m_rehashing` is true only inside `rehash` and is represented by
`rehash` calling `insertRaw` directly. -/
structure LpSet where
  growing : Bool
  arr : List Nat
  items : Nat
  a : Nat
  deriving Repr, DecidableEq

namespace LpSet

/-- `capacity()`, LP_Set.hxx:361. -/
def capacity (s : LpSet) : Nat := s.arr.length

/-- `size()`, LP_Set.hxx:363. -/
def size (s : LpSet) : Nat := s.items

/-- Constructor, LP_Set.hxx:260-267. -/
def new (growing : Bool) (a : Nat) (size : Nat) : LpSet :=
  { growing := growing, arr := List.replicate (nextPow2 (max 1 size)) 0, items := 0, a := a }

/-- Probe loop of `insert`, LP_Set.hxx:311-329. Returns the new array and whether the key was
stored. An index outside the array is undefined behaviour. -/
def insertLoop (k : Nat) (arr : List Nat) : Nat → Nat → Res (List Nat × Bool)
  | 0, _ => .timeout
  | fuel + 1, idx =>
    let i := maskIdx arr.length idx
    match arr[i]? with
    | none => .ub
    | some probed =>
      if probed = k then .done (arr, false)
      else if probed ≠ 0 then insertLoop k arr fuel (i + 1)
      else .done (arr.set i k, true)

/-- `insert` without the growth test (this is `insert` while `m_rehashing` is set),
LP_Set.hxx:311-329. -/
def insertRaw (fuel : Nat) (s : LpSet) (k : Nat) : Res (LpSet × Bool) :=
  (insertLoop k s.arr fuel (hash64 s.a k)).bind fun r =>
    .done ({ s with arr := r.1, items := if r.2 then s.items + 1 else s.items }, r.2)

/-- The copy loop of `rehash`, LP_Set.hxx:377-380. -/
def reinsertAll (fuel : Nat) : List Nat → LpSet → Res LpSet
  | [], s => .done s
  | x :: xs, s =>
    if x ≠ 0 then (insertRaw fuel s x).bind fun r => reinsertAll fuel xs r.1
    else reinsertAll fuel xs s

/-- `rehash(newSize)`, LP_Set.hxx:365-384. -/
def rehash (fuel : Nat) (s : LpSet) (newSize : Nat) : Res LpSet :=
  reinsertAll fuel s.arr { s with arr := List.replicate (nextPow2 newSize) 0, items := 0 }

/-- Growth test of `insert`, LP_Set.hxx:308: `(double) m_items / (double) m_arraySize >= 0.5`.
Both numbers are far below 2^53 and the divisor is a power of two, so the comparison is exact;
for size 0 the quotient is NaN or infinite, the former compares false (`items` is 0 then). -/
def mustGrow (s : LpSet) : Bool :=
  s.growing && decide (s.capacity ≤ 2 * s.items) && !(s.capacity == 0 && s.items == 0)

/-- `insert`, LP_Set.hxx:305-330. -/
protected def insert (fuel : Nat) (s : LpSet) (k : Nat) : Res (LpSet × Bool) :=
  if s.mustGrow then (s.rehash fuel (s.capacity * 2)).bind fun s' => insertRaw fuel s' k
  else insertRaw fuel s k

/-- Loop of `contains`, LP_Set.hxx:335-342. -/
def containsLoop (k : Nat) (arr : List Nat) : Nat → Nat → Res Bool
  | 0, _ => .timeout
  | fuel + 1, idx =>
    let i := maskIdx arr.length idx
    match arr[i]? with
    | none => .ub
    | some probed =>
      if probed = k then .done true
      else if probed = 0 then .done false
      else containsLoop k arr fuel (i + 1)

/-- `contains` (and `count`, which converts the Boolean), LP_Set.hxx:332-348. -/
def contains (fuel : Nat) (s : LpSet) (k : Nat) : Res Bool :=
  containsLoop k s.arr fuel (hash64 s.a k)

/-- Insertion loop of `merge`, LP_Set.hxx:391-394. -/
def insertAll (fuel : Nat) : List Nat → LpSet → Res LpSet
  | [], s => .done s
  | x :: xs, s =>
    if x ≠ 0 then (LpSet.insert fuel s x).bind fun r => insertAll fuel xs r.1
    else insertAll fuel xs s

/-- `merge(other)`, LP_Set.hxx:386-395. -/
def merge (fuel : Nat) (s other : LpSet) : Res LpSet :=
  (s.rehash fuel (s.capacity + other.capacity)).bind fun s' => insertAll fuel other.arr s'

/-- Copy loop of the filtered `rehash`, LP_Set.hxx:410-413; `F` is the filter set. -/
def reinsertFiltered (fuel : Nat) (F : LpSet) (cmp : Bool) : List Nat → LpSet → Res LpSet
  | [], s => .done s
  | x :: xs, s =>
    if x ≠ 0 then
      (F.contains fuel x).bind fun c =>
        if c = cmp then (insertRaw fuel s x).bind fun r => reinsertFiltered fuel F cmp xs r.1
        else reinsertFiltered fuel F cmp xs s
    else reinsertFiltered fuel F cmp xs s

/-- `rehash(newSize, filter, cmp)`, LP_Set.hxx:397-416. The filter's `count` is modelled for an
`LP_Set` filter. -/
def rehashFilter (fuel : Nat) (s : LpSet) (newSize : Nat) (F : LpSet) (cmp : Bool) : Res LpSet :=
  reinsertFiltered fuel F cmp s.arr
    { s with arr := List.replicate (nextPow2 newSize) 0, items := 0 }

/-- `filter(F)`, LP_Set.hxx:418-422 (`cmp` defaults to false). -/
def filter (fuel : Nat) (s F : LpSet) : Res LpSet := s.rehashFilter fuel s.capacity F false

/-- Insertion loop of the filtered `merge`, LP_Set.hxx:428-431. -/
def insertFiltered (fuel : Nat) (F : LpSet) (cmp : Bool) : List Nat → LpSet → Res LpSet
  | [], s => .done s
  | x :: xs, s =>
    if x ≠ 0 then
      (F.contains fuel x).bind fun c =>
        if c = cmp then (LpSet.insert fuel s x).bind fun r => insertFiltered fuel F cmp xs r.1
        else insertFiltered fuel F cmp xs s
    else insertFiltered fuel F cmp xs s

/-- `merge(other, filter, cmp)`, LP_Set.hxx:424-432. The call of `rehash` at line 426 does not pass
`cmp` on, so the default `false` is used there. -/
def mergeFilter (fuel : Nat) (s other F : LpSet) (cmp : Bool) : Res LpSet :=
  (s.rehashFilter fuel (2 * (s.size + other.size)) F false).bind fun s' =>
    insertFiltered fuel F cmp other.arr s'

/-- Loop of `copy`, LP_Set.hxx:298-300: writes `src[i]` to slot `i`. -/
def copyLoop : List Nat → Nat → List Nat → List Nat
  | [], _, dst => dst
  | x :: xs, i, dst => copyLoop xs (i + 1) (dst.set i x)

/-- `copy()`, LP_Set.hxx:294-303. -/
def copy (s : LpSet) : LpSet :=
  let c := new s.growing s.a s.arr.length
  { c with items := s.items, arr := copyLoop s.arr 0 c.arr }

end LpSet

end Verif

namespace Verif
namespace LpSet

/-- `save`, LP_Set.hxx:469-477: size, item count, the array, the hash multiplier. The archive is
modelled as the sequence of numbers written to it. -/
def save (s : LpSet) : List Nat := s.arr.length :: s.items :: (s.arr ++ [s.a])

/-- `load`, LP_Set.hxx:479-489: reads the fields back in the same order; returns the set and the
rest of the archive, `none` if the archive is too short (boost throws). `Growing` is a template
parameter of the type being loaded. -/
def load (growing : Bool) : List Nat → Option (LpSet × List Nat)
  | n :: items :: rest =>
    if n ≤ rest.length then
      match rest.drop n with
      | a :: rest' => some ({ growing := growing, arr := rest.take n, items := items, a := a }, rest')
      | [] => none
    else none
  | _ => none

/-- Loop of `operator==`, LP_Set.hxx:499-502 (range-for over the other set's elements). -/
def eqLoop (fuel : Nat) (s : LpSet) : List Nat → Res Bool
  | [] => .done true
  | x :: xs =>
    if x ≠ 0 then
      (s.contains fuel x).bind fun c => if c then eqLoop fuel s xs else .done false
    else eqLoop fuel s xs

/-- `operator==`, LP_Set.hxx:494-505; `t` is another `LP_Set`, iterated over its occupied slots. -/
def eqSet (fuel : Nat) (s t : LpSet) : Res Bool :=
  if s.size ≠ t.size then .done false else eqLoop fuel s t.arr

end LpSet
end Verif
