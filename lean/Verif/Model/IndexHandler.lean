import Verif.Model.Conc

/-!
# Model of the identifier allocators

`/repo/include/utils/IndexHandler.h`. `tIdType` is `uint64_t` (Geometry.h:39).
-/
namespace Verif
namespace IndexHandler

/-- State of `IndexHandler`, IndexHandler.h:38-41 (`m_id`, `m_freeIds`, `m_enabled`). -/
structure St where
  id : Nat
  free : List Nat
  enabled : Bool

/-- Constructors, IndexHandler.h:11-13. -/
def init (i : Nat) : St := { id := i, free := [], enabled := true }

/-- `getId`, IndexHandler.h:15-23. The increment wraps around at `2^64`. -/
def getId (s : St) : St × Nat :=
  match s.free with
  | [] => ({ s with id := (s.id + 1) % 2 ^ 64 }, s.id)
  | x :: xs => ({ s with free := xs }, x)

/-- `releaseId`, IndexHandler.h:25-28. -/
def releaseId (s : St) (x : Nat) : St :=
  if s.enabled then { s with free := s.free ++ [x] } else s

/-- `maxId`, IndexHandler.h:30-32. -/
def maxId (s : St) : Nat := s.id

/-- `disable`, IndexHandler.h:34-36. -/
def disable (s : St) : St := { s with enabled := false }

end IndexHandler

namespace ConcIndexHandler

/-- State of `Concurrent_IndexHandler`, IndexHandler.h:73-76. The TBB queue is a linearizable FIFO
queue, so `push` and `try_pop` are single steps. `disable` is not called concurrently. -/
structure Shared where
  id : Nat
  free : List Nat
  enabled : Bool

/-- Operations. (include/utils/IndexHandler.h:52-67) -/
inductive Op
  | get
  | release (x : Nat)
deriving DecidableEq

/-- Program points: `tryPop` (IndexHandler.h:54), `incr` (57), `push` (61-62). -/
inductive Loc
  | tryPop
  | incr
  | push (x : Nat)

/-- Steps of `getId` (52-58) and `releaseId` (60-63); `releaseId` returns `0`. -/
def step (s : Shared) : Loc → Option (Shared × (Loc ⊕ Nat))
  | .tryPop => match s.free with
    | [] => some (s, .inl .incr)
    | x :: xs => some ({ s with free := xs }, .inr x)
  | .incr => some ({ s with id := (s.id + 1) % 2 ^ 64 }, .inr s.id)
  | .push x => some (if s.enabled then { s with free := s.free ++ [x] } else s, .inr 0)

/-- First program point. (include/utils/IndexHandler.h:52-67) -/
def start : Op → Loc
  | .get => .tryPop
  | .release x => .push x

/-- The concurrent object. (include/utils/IndexHandler.h:45-78) -/
def obj : Conc.Obj Shared Loc Op Nat := { start := start, step := step }

/-- Constructors, IndexHandler.h:48-50. -/
def init (i : Nat) (enabled : Bool) : Shared := { id := i, free := [], enabled := enabled }

end ConcIndexHandler
end Verif
