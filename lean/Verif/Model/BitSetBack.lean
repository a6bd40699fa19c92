import Verif.Model.BitSet

/-!
# Walking a bit set backwards

`/repo/include/datastructures/Bit_Set.hxx` lines 45-54 and 127-134: `operator--` of the iterator of a bit set.
-/
namespace Verif
namespace BitSet

/-- `_dec(false)`, that is `operator--`: the position is a 64-bit number, so `m_idx >= 0` always holds and the decrement of 0 wraps around;
`_isSet` converts the position to 32 bits. (include/datastructures/Bit_Set.hxx:45-48, 127-134, 452-454) -/
def dec (s : BitSet) : Nat → Nat → Res Nat
  | 0, _ => .timeout
  | fuel + 1, idx =>
    let i := (idx + (2 ^ 64 - 1)) % 2 ^ 64
    match s.arr[key i / 32]? with
    | none => .ub
    | some w => if test w (key i) then .done i else dec s fuel i

/-- The loop `for (it = end(); it != begin();) visit(*--it)`, where `b` is the position of `begin()`.
(include/datastructures/Bit_Set.hxx:45-48, 73-77, 95, 463-469) -/
def backLoop (s : BitSet) (b : Nat) : Nat → Nat → Res (List Nat)
  | 0, _ => .timeout
  | fuel + 1, idx =>
    if idx = b then .done []
    else (s.dec (fuel + 1) idx).bind fun i => (backLoop s b fuel i).bind fun vs => .done ((s.lo + i) :: vs)

/-- All elements visited by a loop from `end()` to `begin()`. (include/datastructures/Bit_Set.hxx:463-469) -/
def backwards (s : BitSet) (fuel : Nat) : Res (List Nat) :=
  match s.advT 0 with
  | none => .ub
  | some b => s.backLoop b fuel (s.hi - s.lo)

end BitSet
end Verif
