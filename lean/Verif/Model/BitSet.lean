import Mathlib.Data.List.Basic
import Verif.Model.Res

/-!
# Model of the bit set

`/repo/include/datastructures/Bit_Set.hxx` lines 12-146 (iterator) and 148-522 (`Bit_Set`).
`none` is undefined behaviour.
-/
namespace Verif

/-- `popcount`, Misc.h:49-61, for 32-bit words (`(T)~(T)0/3` etc. evaluated). -/
def popcount32 (x : BitVec 32) : BitVec 32 :=
  let v := x
  let v := v - ((v >>> 1) &&& 0x55555555#32)
  let v := (v &&& 0x33333333#32) + ((v >>> 2) &&& 0x33333333#32)
  let v := (v + (v >>> 4)) &&& 0x0F0F0F0F#32
  (v * 0x01010101#32) >>> 24

/-- State of `Bit_Set`, Bit_Set.hxx:477-485. `arr` is `m_array` (blocks of `cENTRIES` = 32 bits),
`m_arraySize` its length; `m_ones` does not underflow (it counts the set bits whenever one is
cleared). -/
structure BitSet where
  lo : Nat
  hi : Nat
  arr : List (BitVec 32)
  ones : Nat

namespace BitSet

/-- Conversion of an identifier to `tKeyType = uint`. (include/datastructures/Bit_Set.hxx:151) -/
def key (k : Nat) : Nat := k % 2 ^ 32

/-- Constructor, Bit_Set.hxx:155-173 with `zero = true`. Simplification: bounds with
`upperBound < lowerBound` (size underflow) are not considered. -/
def new (lower upper : Nat) : BitSet :=
  let lo := lower / 32 * 32
  let hi := (upper + 31) / 32 * 32
  { lo := lo, hi := hi, arr := List.replicate ((hi - lo) / 32) 0#32, ones := 0 }

/-- `size()` / `ones()`, Bit_Set.hxx:284, 439. -/
def size (s : BitSet) : Nat := s.ones

/-- `m_array[_block(idx)]`, Bit_Set.hxx:444-450; for `idx < m_lowerBound` the difference wraps around
and the access is out of bounds. -/
def block (s : BitSet) (idx : Nat) : Option (BitVec 32) :=
  if idx < s.lo then none else s.arr[(idx - s.lo) / 32]?

/-- The bit test of Bit_Set.hxx:259 and 453. -/
def test (w : BitVec 32) (idx : Nat) : Bool := w != 0#32 && (w &&& (1#32 <<< (idx % 32))) != 0#32

/-- `isSet` (and `contains`), Bit_Set.hxx:254-263, 430. -/
def isSet (s : BitSet) (k : Nat) : Option Bool :=
  let idx := key k
  if s.lo ≤ idx ∧ idx < s.hi then (s.block idx).map fun w => test w idx else some false

/-- `testAndSet`, Bit_Set.hxx:195-204. -/
def testAndSet (s : BitSet) (k : Nat) : Option (BitSet × Bool) :=
  let idx := key k
  (s.isSet k).bind fun t => (s.block idx).bind fun w =>
    some ({ s with arr := s.arr.set ((idx - s.lo) / 32) (w ||| (1#32 <<< (idx % 32))),
                   ones := s.ones + (!t).toNat }, t)

/-- `testAndUnset` (and `erase`), Bit_Set.hxx:206-215, 428. -/
def testAndUnset (s : BitSet) (k : Nat) : Option (BitSet × Bool) :=
  let idx := key k
  (s.isSet k).bind fun t => (s.block idx).bind fun w =>
    some ({ s with arr := s.arr.set ((idx - s.lo) / 32) (w &&& ~~~(1#32 <<< (idx % 32))),
                   ones := s.ones - t.toNat }, t)

/-- `insert`, Bit_Set.hxx:426. -/
protected def insert (s : BitSet) (k : Nat) : Option (BitSet × Bool) :=
  (s.testAndSet k).map fun r => (r.1, !r.2)

/-- Middle loop of `batchSet`, Bit_Set.hxx:240-241: blocks `i, ..., i + n - 1` become all ones. -/
def fillOnes : Nat → Nat → List (BitVec 32) → List (BitVec 32)
  | 0, _, arr => arr
  | n + 1, i, arr => fillOnes n (i + 1) (arr.set i (BitVec.allOnes 32))

/-- `batchSet`, Bit_Set.hxx:217-252. The shift by `cENTRIES - (to % cENTRIES)` (246) is undefined for
`to % cENTRIES = 0`. -/
def batchSet (s : BitSet) (from_ to_ : Nat) : Option BitSet :=
  if from_ < s.lo ∨ to_ - 1 < s.lo ∨ to_ = 0 then none
  else
    let fb := (from_ - s.lo) / 32
    let tb := (to_ - 1 - s.lo) / 32
    if s.arr.length ≤ fb ∨ s.arr.length ≤ tb then none
    else if to_ % 32 = 0 then none
    else
      let a1 := s.arr.set fb (BitVec.allOnes 32 <<< (from_ % 32))
      let a2 := fillOnes (tb - (fb + 1)) (fb + 1) a1
      let last := (BitVec.allOnes 32 >>> (32 - to_ % 32)) &&&
        (if tb = fb then a2.getD tb 0#32 else BitVec.allOnes 32)
      some { s with arr := a2.set tb last, ones := to_ - from_ }

/-- Block of `s` starting at id `i`, zero outside the range (the conditional expressions of
Bit_Set.hxx:365-368, 406-413). -/
def blockOr0 (s : BitSet) (i : Nat) : Option (BitVec 32) :=
  if s.lo ≤ i ∧ i < s.hi then s.arr[(i - s.lo) / 32]? else some 0#32

/-- Number of set bits as counted by the loops of `merge` and `mergeFilter` (369, 414). -/
def countOnes (arr : List (BitVec 32)) : Nat := (arr.map fun w => (popcount32 w).toNat).sum

/-- `merge`, Bit_Set.hxx:343-373. -/
def merge (s o : BitSet) : Option BitSet :=
  let lo := min s.lo o.lo
  let hi := max s.hi o.hi
  ((List.range ((hi - lo) / 32)).mapM fun j =>
    (s.blockOr0 (lo + 32 * j)).bind fun x => (o.blockOr0 (lo + 32 * j)).bind fun y =>
      some (x ||| y)).bind fun arr =>
  some { lo := lo, hi := hi, arr := arr, ones := countOnes arr }

/-- `mergeFilter`, Bit_Set.hxx:387-416. -/
def mergeFilter (s o f : BitSet) : Option BitSet :=
  let lo := min s.lo o.lo
  let hi := max s.hi o.hi
  ((List.range ((hi - lo) / 32)).mapM fun j =>
    (s.blockOr0 (lo + 32 * j)).bind fun x => (o.blockOr0 (lo + 32 * j)).bind fun y =>
      (f.blockOr0 (lo + 32 * j)).bind fun z => some ((x ||| y) &&& ~~~z)).bind fun arr =>
  some { lo := lo, hi := hi, arr := arr, ones := countOnes arr }

/-- Loop of `filter`, Bit_Set.hxx:379-384, for `n` blocks starting at id `i`. -/
def filterLoop (f : BitSet) : Nat → Nat → BitSet → Option BitSet
  | 0, _, s => some s
  | n + 1, i, s =>
    (s.block i).bind fun w => (f.block i).bind fun z =>
      let w' := w &&& ~~~z
      filterLoop f n (i + 32) { s with arr := s.arr.set ((i - s.lo) / 32) w',
                                       ones := s.ones + (popcount32 w').toNat }

/-- `filter`, Bit_Set.hxx:375-385. The loop runs over the common part of both ranges. -/
def filter (s f : BitSet) : Option BitSet :=
  filterLoop f ((min s.hi f.hi - max s.lo f.lo) / 32) (max s.lo f.lo) { s with ones := 0 }

/-- `resize`, Bit_Set.hxx:310-341. -/
def resize (s : BitSet) (lower upper : Nat) : Option BitSet :=
  let lo := min s.lo (lower / 32 * 32)
  let hi := max s.hi ((upper + 31) / 32 * 32)
  let ol := (s.lo - lo) / 32
  let ou := (s.hi - lo) / 32
  ((List.range ((hi - lo) / 32)).mapM fun j =>
    if j < ol then some 0#32 else if j < ou then s.arr[j - ol]? else some 0#32).bind fun arr =>
  some { s with lo := lo, hi := hi, arr := arr }

/-- Increment of the iterator loops, Bit_Set.hxx:114-117, 119-122. -/
def stride (w : BitVec 32) (idx : Nat) : Nat :=
  if idx % 32 ≠ 0 then 1 else if w != 0#32 then 1 else 32

theorem stride_pos (w : BitVec 32) (idx : Nat) : 0 < stride w idx := by
  unfold stride; split
  · omega
  · split <;> omega

/-- `_advance(true)`, Bit_Set.hxx:112-117; `m_end` is `upperBound - lowerBound`. -/
def advT (s : BitSet) (idx : Nat) : Option Nat :=
  if h : idx < s.hi - s.lo then
    match s.arr[idx / 32]? with
    | none => none
    | some w => if test w idx then some idx else advT s (idx + stride w idx)
  else some idx
termination_by s.hi - s.lo - idx
decreasing_by have := stride_pos w idx; omega

/-- `_advance(false)`, i.e. `operator++`, Bit_Set.hxx:118-123, 34-37. -/
def next (s : BitSet) (idx : Nat) : Option Nat :=
  match s.arr[idx / 32]? with
  | none => none
  | some w => advT s (idx + stride w idx)

/-- The loop `for (it = begin(); it != end(); ++it) visit(*it)`, Bit_Set.hxx:95, 463-469. -/
def forLoop (s : BitSet) : Nat → Nat → Res (List Nat)
  | 0, _ => .timeout
  | fuel + 1, idx =>
    if idx = s.hi - s.lo then .done []
    else match s.next idx with
      | none => .ub
      | some i => (forLoop s fuel i).bind fun vs => .done ((s.lo + idx) :: vs)

/-- All elements visited by a loop from `begin()` to `end()`. (include/datastructures/Bit_Set.hxx:463-469) -/
def iterate (s : BitSet) (fuel : Nat) : Res (List Nat) :=
  match s.advT 0 with
  | none => .ub
  | some i => s.forLoop fuel i

/-- `save`, Bit_Set.hxx:494-501. -/
def save (s : BitSet) : List Nat :=
  s.arr.length :: s.lo :: s.hi :: s.ones :: s.arr.map (·.toNat)

/-- `load`, Bit_Set.hxx:503-518. -/
def load : List Nat → Option (BitSet × List Nat)
  | n :: lo :: hi :: ones :: rest =>
    if n ≤ rest.length then
      some ({ lo := lo, hi := hi, arr := (rest.take n).map (BitVec.ofNat 32), ones := ones },
        rest.drop n)
    else none
  | _ => none

end BitSet
end Verif
