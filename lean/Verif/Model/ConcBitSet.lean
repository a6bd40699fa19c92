import Verif.Model.BitSet
import Verif.Model.Conc

/-!
# Model of the lock-free bit set

`/repo/include/datastructures/Bit_Set.hxx` lines 524-700 (`Concurrent_Bit_Set`). Every access to an
atomic block or to the atomic counter is one step.
-/
namespace Verif
namespace ConcBitSet

/-- State of `Concurrent_Bit_Set`: bounds, blocks and the counter `m_ones`. The counter is a
`std::size_t`; it is modelled by an integer `ones` with value `ones mod 2^64` (see `size`). -/
structure Shared where
  lo : Nat
  hi : Nat
  arr : List (BitVec 32)
  ones : Int

/-- Operations (Bit_Set.hxx:573, 597, 621). -/
inductive Op
  | set (k : Nat)
  | unset (k : Nat)
  | isSet (k : Nat)
deriving DecidableEq

/-- Program points. `setCas k val`: in the loop 583-590 with local variable `val` whose bit was
clear; `setIncr`: before `++m_ones` (586); likewise for `testAndUnset`. -/
inductive Loc
  | setLoad (k : Nat)
  | setCas (k : Nat) (val : BitVec 32)
  | setIncr (k : Nat)
  | unsetLoad (k : Nat)
  | unsetCas (k : Nat) (val : BitVec 32)
  | unsetDecr (k : Nat)
  | isSet (k : Nat)

/-- `1 << (idx % cENTRIES)`, Bit_Set.hxx:578, 602. -/
def mask (k : Nat) : BitVec 32 := 1#32 <<< (k % 32)

/-- `m_array[_block(idx)].load()`; out of bounds access is undefined. (include/datastructures/Bit_Set.hxx:580, 604, 626) -/
def load (s : Shared) (k : Nat) : Option (BitVec 32) :=
  if k < s.lo then none else s.arr[(k - s.lo) / 32]?

/-- Store of a successful `compare_exchange_strong`. (include/datastructures/Bit_Set.hxx:585-587, 609-611) -/
def store (s : Shared) (k : Nat) (w : BitVec 32) : Shared :=
  { s with arr := s.arr.set ((k - s.lo) / 32) w }

/-- Loop test of `testAndSet` (583) after `val` was read: return `true` or try to exchange. -/
def setTest (k : Nat) (val : BitVec 32) : Loc ⊕ Bool :=
  if val &&& mask k ≠ 0#32 then .inr true else .inl (.setCas k val)

/-- Loop test of `testAndUnset` (607). -/
def unsetTest (k : Nat) (val : BitVec 32) : Loc ⊕ Bool :=
  if val &&& mask k ≠ 0#32 then .inl (.unsetCas k val) else .inr false

/-- Atomic steps of `testAndSet` (573-595), `testAndUnset` (597-619), `isSet` (621-631). A failed
`compare_exchange_strong` replaces `val` by the current value. -/
def step (s : Shared) : Loc → Option (Shared × (Loc ⊕ Bool))
  | .setLoad k => (load s k).map fun val => (s, setTest k val)
  | .setCas k val => (load s k).map fun cur =>
      if cur = val then (store s k (val ||| mask k), .inl (.setIncr k)) else (s, setTest k cur)
  | .setIncr _ => some ({ s with ones := s.ones + 1 }, .inr false)
  | .unsetLoad k => (load s k).map fun val => (s, unsetTest k val)
  | .unsetCas k val => (load s k).map fun cur =>
      if cur = val then (store s k (val &&& ~~~(mask k)), .inl (.unsetDecr k))
      else (s, unsetTest k cur)
  | .unsetDecr _ => some ({ s with ones := s.ones - 1 }, .inr true)
  | .isSet k =>
    if s.lo ≤ k ∧ k < s.hi then (load s k).map fun val => (s, .inr (BitSet.test val k))
    else some (s, .inr false)

/-- Begin of an operation; the id is converted to `tKeyType = uint`. (include/datastructures/Bit_Set.hxx:573, 597, 621) -/
def start : Op → Loc
  | .set k => .setLoad (BitSet.key k)
  | .unset k => .unsetLoad (BitSet.key k)
  | .isSet k => .isSet (BitSet.key k)

/-- The concurrent object. (include/datastructures/Bit_Set.hxx:573-632) -/
def obj : Conc.Obj Shared Loc Op Bool := { start := start, step := step }

/-- Conversion from a `Bit_Set`, Bit_Set.hxx:732-737 (array and counter are taken over; the cast of the
array between atomic and plain words is not modelled). -/
def ofBitSet (s : BitSet) : Shared := { lo := s.lo, hi := s.hi, arr := s.arr, ones := s.ones }

/-- Conversion to a `Bit_Set`, Bit_Set.hxx:725-730. -/
def toBitSet (s : Shared) : BitSet :=
  { lo := s.lo, hi := s.hi, arr := s.arr, ones := (s.ones % 2 ^ 64).toNat }

/-- `size()` / `ones()`, the value of the `size_t` counter. (include/datastructures/Bit_Set.hxx:652, 669) -/
def size (s : Shared) : Nat := (s.ones % 2 ^ 64).toNat

end ConcBitSet
end Verif
