import Verif.Model.Grid

/-!
# Concurrent computation of the bounds of parts

`/repo/include/load_balancing/GridIntersectionChecker.h:126-143` and `BoundsIntersectionChecker.h:60-74`: the parts are
processed in parallel, and the flags `initialized` are the bits of a `std::vector<bool>`. The flags of parts `i` and
`j` are in the same word of memory iff `word i = word j` (`word i = i / 64` for 64-bit words), and a flag is set by
loading, changing and storing its word. Memory is sequentially consistent; a box is only accessed by its own thread,
so the accesses to it are merged with the access to the flag.
-/
namespace Verif
namespace Race
variable {n D : Nat} {K : Type} [Field K] [LinearOrder K]

/-- Position in the loop body of a thread. (include/load_balancing/GridIntersectionChecker.h:132-142) -/
inductive Pc (n : Nat) where
  | test
  | load
  | store (w : Fin n → Bool)

/-- Shared state and the state of the threads: `todo` are the points that remain, including the current one.
(include/load_balancing/GridIntersectionChecker.h:126-132) -/
structure St (n D : Nat) (K : Type) where
  flag : Fin n → Bool
  box : Fin n → Option (Box D K)
  todo : Fin n → List (Vec D K)
  pc : Fin n → Pc n

/-- `if(initialized[partition])`: the flag is set. (include/load_balancing/GridIntersectionChecker.h:135-136) -/
def enlargeOwn (c : St n D K) (i : Fin n) (p : Vec D K) (r : List (Vec D K)) : St n D K :=
  { c with box := Function.update c.box i ((c.box i).map fun b => b.enlarge p), todo := Function.update c.todo i r }

/-- The flag is not set. (include/load_balancing/GridIntersectionChecker.h:137-139) -/
def initOwn (c : St n D K) (i : Fin n) (p : Vec D K) : St n D K :=
  { c with box := Function.update c.box i (some ⟨p, p⟩), pc := Function.update c.pc i .load }

/-- First half of `initialized[partition] = true`. (include/load_balancing/GridIntersectionChecker.h:140) -/
def loadWord (c : St n D K) (i : Fin n) : St n D K := { c with pc := Function.update c.pc i (.store c.flag) }

/-- Second half: all flags of the word are written, the own one as `true`.
(include/load_balancing/GridIntersectionChecker.h:140) -/
def storeWord (word : Fin n → Nat) (c : St n D K) (i : Fin n) (w : Fin n → Bool) : St n D K :=
  { c with
    flag := fun j => if word j = word i then (if j = i then true else w j) else c.flag j
    todo := Function.update c.todo i (c.todo i).tail
    pc := Function.update c.pc i .test }

/-- Next step of thread `i`; `none`: it has finished. (include/load_balancing/GridIntersectionChecker.h:131-143) -/
def step (word : Fin n → Nat) (c : St n D K) (i : Fin n) : Option (St n D K) :=
  match c.todo i, c.pc i with
  | [], _ => none
  | p :: r, .test => some (if c.flag i then enlargeOwn c i p r else initOwn c i p)
  | _ :: _, .load => some (loadWord c i)
  | _ :: _, .store w => some (storeWord word c i w)

/-- Start of the parallel loop, `l i` are the points of part `i`. (include/load_balancing/GridIntersectionChecker.h:126-131) -/
def start (l : Fin n → List (Vec D K)) : St n D K := ⟨fun _ => false, fun _ => none, l, fun _ => .test⟩

/-- States reachable by interleaving the threads in any order. (include/load_balancing/GridIntersectionChecker.h:131-143) -/
inductive Reach (word : Fin n → Nat) (l : Fin n → List (Vec D K)) : St n D K → Prop where
  | start : Reach word l (start l)
  | step {c c' : St n D K} (i : Fin n) : Reach word l c → Race.step word c i = some c' → Reach word l c'

/-- A given schedule. (include/load_balancing/GridIntersectionChecker.h:131-143) -/
def run (word : Fin n → Nat) : List (Fin n) → St n D K → Option (St n D K)
  | [], c => some c
  | i :: s, c => (step word c i).bind (run word s)

end Race
end Verif
