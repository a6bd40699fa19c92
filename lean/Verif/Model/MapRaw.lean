import Verif.Model.ConcMap

/-!
# Model of `_insert` of the concurrent map

`/repo/include/datastructures/LP_Map.hxx` lines 456-486: `Concurrent_LP_Map::_insert(key, value)`, executed by one thread while no other
thread uses the map. The loop has no condition and its body no `return` or `break`.
-/
namespace Verif
namespace ConcMap

/-- One round of the loop: the map and the next position. (include/datastructures/LP_Map.hxx:459-485) -/
def rawStep (s : Shared) (k v idx : Nat) : Option (Shared × Nat) :=
  let i := maskIdx s.keys.length idx
  match s.keys[i]? with
  | none => none
  | some probed =>
    if probed = k then some ({ s with vals := s.vals.set i (some v) }, i + 1)
    else if probed ≠ 0 then some (s, i + 1)
    else some ({ s with keys := s.keys.set i k, vals := s.vals.set i (some v), items := s.items + 1 }, i + 1)

/-- The map and the position after a number of rounds. (include/datastructures/LP_Map.hxx:459-485) -/
def rawRounds (k v : Nat) : Nat → Shared → Nat → Option (Shared × Nat)
  | 0, s, idx => some (s, idx)
  | n + 1, s, idx => (rawStep s k v idx).bind fun r => rawRounds k v n r.1 r.2

/-- `_insert(key, value)`: rounds without end. (include/datastructures/LP_Map.hxx:456-486) -/
def rawInsert (s : Shared) (k v : Nat) (fuel : Nat) : Res Shared :=
  match rawRounds k v fuel s (hash64 s.a k) with
  | none => .ub
  | some _ => .timeout

end ConcMap
end Verif
