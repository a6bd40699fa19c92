import Mathlib.Data.List.Basic

/-!
# The indentation of the log in the parallel triangulators

`/repo/include/utils/Logger.h` and `/repo/src/utils/Logger.cpp`: the indentation is a thread-local unsigned number.
`/repo/src/lib/DCTriangulator.cpp` (and `/repo/include/LoadBalancedDCTriangulator.tpp`, with the same calls at 154, 203,
282-283, 305, 321, 368, 376, 513-549, 575-682): the calls of `setIndent`, `INDENT`, `DEDENT` and `LOG` in the recursion.

One thread is modelled. A parallel loop puts its bodies in a pool; the thread that waits for the loop takes tasks
from the pool, the other threads take the remaining ones. TBB lets a waiting thread take any task, also one of an
enclosing loop; with `iso` it takes only tasks of the loop it waits for (`tbb::this_task_arena::isolate`).

Simplifications: the log level is at least NORMAL; a `VLOG` or `PLOG` counts as a `LOG`; what the calls compute is
left out.
-/
namespace Verif
namespace Indent

/-- The calls of the logger and the loops in the order of the program. `wait t bs` is the rest of a loop with the
bodies `bs` whose tasks have the mark `t`. -/
inductive Code where
  | set (n : Nat)
  | inc
  | dec
  | log
  | seq (cs : List Code)
  | par (bs : List Code)
  | wait (t : Nat) (bs : List Code)
  | neigh (k : Nat)

/-- The state of the thread: its indentation and the tasks that nobody has taken yet. -/
structure St where
  ind : Nat
  pool : List (Nat × Code)
  tag : Nat

/-- `incIndent`. (include/utils/Logger.h:77) -/
def up (s : Nat) : Nat := (s + 1) % 2 ^ 32

/-- `decIndent`; the assertion is not compiled with `NDEBUG`. (include/utils/Logger.h:79-82) -/
def down (s : Nat) : Nat := (s + (2 ^ 32 - 1)) % 2 ^ 32

/-- The body of the loop in `updateNeighbors`, for the value of `saveIndent`. (src/lib/DCTriangulator.cpp:281-344) -/
def checkBody (save : Nat) : Code := .seq [.set save, .inc, .dec]

/-- `updateNeighbors` after its first `INDENT`. (src/lib/DCTriangulator.cpp:259-352) -/
def checkAll (save k : Nat) : Code := .seq [.par (List.replicate k (checkBody save)), .log, .dec]

/-- What a thread does from one state to another, with the indentations of the lines it logs. -/
inductive Steps (iso : Bool) : Code → St → St → List Nat → Prop
  | set (n : Nat) (st : St) : Steps iso (.set n) st { st with ind := n } []
  | inc (st : St) : Steps iso .inc st { st with ind := up st.ind } []
  | dec (st : St) : Steps iso .dec st { st with ind := down st.ind } []
  | log (st : St) : Steps iso .log st st [st.ind]
  | nil (st : St) : Steps iso (.seq []) st st []
  | cons {c cs st st1 st2 o1 o2} : Steps iso c st st1 o1 → Steps iso (.seq cs) st1 st2 o2 →
      Steps iso (.seq (c :: cs)) st st2 (o1 ++ o2)
  | par {bs st st' o} : Steps iso (.wait st.tag bs) ⟨st.ind, bs.map (fun b => (st.tag, b)) ++ st.pool, st.tag + 1⟩ st' o →
      Steps iso (.par bs) st st' o
  | stop {t bs st pool'} : pool'.Sublist st.pool → (∀ e ∈ pool', e.1 ≠ t) →
      Steps iso (.wait t bs) st { st with pool := pool' } []
  | run {t bs st st1 st2 o1 o2 a b} {e : Nat × Code} : st.pool = a ++ e :: b →
      (iso = true → e.1 = t ∧ e.2 ∈ bs) →
      Steps iso e.2 { st with pool := a ++ b } st1 o1 → Steps iso (.wait t bs) st1 st2 o2 →
      Steps iso (.wait t bs) st st2 (o1 ++ o2)
  | neigh {k st st' o} : Steps iso (.seq [.inc, checkAll (up st.ind) k]) st st' o → Steps iso (.neigh k) st st' o

/-- The recursion: `base` ends in the base case, `direct` is a direct call of `_triangulateBase`; `m` is the number of
simplices the edge extraction visits and `k` the number of simplices the repair of the neighbours visits. -/
inductive Shape where
  | direct
  | base
  | node (parts : List Shape) (m : Nat) (edge : Shape) (k : Nat)

/-- `_triangulateBase` with a provenance of length `l`, with the calls of `_delaunayCgal`.
(src/lib/DCTriangulator.cpp:486-493, src/lib/CGALTriangulator.cpp:321, 362) -/
def baseCode (l : Nat) : Code := .seq [.set l, .log, .inc, .inc, .dec, .dec]

/-- `getEdge`. (src/lib/DCTriangulator.cpp:130-179) -/
def edgeCode (m : Nat) : Code := .seq [.inc, .par (List.replicate m .log), .dec]

/-- A body of the second loop of `_triangulate`. (src/lib/DCTriangulator.cpp:552-560) -/
def edgeBody (l m : Nat) : Code := .seq [.set l, .inc, .log, edgeCode m, .dec]

mutual
/-- `_triangulate` with a provenance of length `l`. (src/lib/DCTriangulator.cpp:499-609) -/
def tri : Shape → Nat → Code
  | .direct, l => baseCode l
  | .base, l => .seq [.set l, .log, baseCode l]
  | .node ps m e k, l => .seq [.set l, .log, .log, .log, .inc, .dec, .par (triBodies ps l),
      .par (List.replicate ps.length (edgeBody l m)), .log, .inc, tri e (l + 1), .dec, .log, .log, .log, .neigh k]
/-- The bodies of the first loop. (src/lib/DCTriangulator.cpp:531-541) -/
def triBodies : List Shape → Nat → List Code
  | [], _ => []
  | p :: ps, l => .seq [.set l, .inc, .log, tri p (l + 1), .dec] :: triBodies ps l
end

end Indent
end Verif
