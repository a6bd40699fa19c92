import Verif.Model.GrowingMap
import Verif.Model.Sampler

/-!
# Model of `makeGraph` with the edge map of the code

`/repo/include/load_balancing/sample_partitioner/Sampler.h` 315-384 like in `Verif.Model.Sampler`, but with the
growing concurrent map (`Verif.Model.GrowingMap`) as edge map: the insertions of the threads interleave
with each other and with the growth of the table. The weights are positive `int`s (1, or the values 1 to 99 of
the mapper, Sampler.h:305, 342), stored as natural numbers. The handles of the threads are constructed before the
loop; in the code a thread constructs its handle when it gets its first simplices (324).
-/
namespace Verif
namespace Samp

/-- State of the first loop with `T` threads: the edge map with the insertions in progress, `graph.nodeRecords`,
edges the threads have still to process, the source of the edge a thread is inserting and the counters
they have still to increment. (include/load_balancing/sample_partitioner/Sampler.h:315-354) -/
structure Loop (T : Nat) where
  c : Conc.Config T GrowingMap.Shared GrowingMap.Loc GrowingMap.Op ConcMap.MapRet
  recs : List Nat
  todo : Fin T → List Edge
  cur : Fin T → Nat
  inc : Fin T → Option Nat

variable {T : Nat}

/-- The next step of thread `t`: increment a counter (346), one atomic access of an insertion, or the call of
the next insertion (344). `none`: the thread has finished or its next step is undefined.
(include/load_balancing/sample_partitioner/Sampler.h:322-354) -/
def Loop.next (s : Loop T) (t : Fin T) : Option (Loop T) :=
  match s.inc t with
  | some i =>
    if i + 1 < s.recs.length then
      some { s with recs := s.recs.modify (i + 1) (· + 1), inc := Function.update s.inc t none }
    else none
  | none =>
    match s.c.th t with
    | some a =>
      match GrowingMap.step s.c.sh a.loc with
      | none => none
      | some (sh, .inl l) =>
        some { s with c := { s.c with sh := sh, th := Function.update s.c.th t (some ⟨a.op, l, a.steps + 1⟩) } }
      | some (sh, .inr r) =>
        some { s with
          c := { sh := sh, th := Function.update s.c.th t none, hist := s.c.hist ++ [.res t a.op r] }
          inc := Function.update s.inc t (match r with | .bool true => some (s.cur t) | _ => none) }
    | none =>
      match s.todo t with
      | [] => none
      | e :: l =>
        some { s with
          c := { s.c with
            th := Function.update s.c.th t
              (some ⟨⟨t, key e.1 e.2.1, e.2.2.toNat⟩, GrowingMap.obj.start ⟨t, key e.1 e.2.1, e.2.2.toNat⟩, 0⟩)
            hist := s.c.hist ++ [.inv t ⟨t, key e.1 e.2.1, e.2.2.toNat⟩] }
          todo := Function.update s.todo t l
          cur := Function.update s.cur t e.1 }

/-- Steps of the threads in any order. (include/load_balancing/sample_partitioner/Sampler.h:322-354) -/
def Loop.Step (s s' : Loop T) : Prop := ∃ t, s.next t = some s'

/-- All threads are done. (include/load_balancing/sample_partitioner/Sampler.h:354) -/
def Loop.final (s : Loop T) : Prop := ∀ t, s.inc t = none ∧ s.c.th t = none ∧ s.todo t = []

/-- Beginning of the loop, with an edge map constructed for `msize` entries.
(include/load_balancing/sample_partitioner/Sampler.h:315-320) -/
def Loop.init (junk : Nat → Nat) (a msize n : Nat) (work : Fin T → List Edge) : Loop T :=
  ⟨.init T (GrowingMap.new junk a msize T), List.replicate (n + 1) 0, work, fun _ => 0, fun _ => none⟩

/-- The entries the second loop iterates over: those of `g_table_r` with a key that is not zero.
(include/load_balancing/sample_partitioner/Sampler.h:364-368; include/datastructures/Growing_LP.hxx:331-345;
include/datastructures/LP_Map.hxx:430-452) -/
def entries (s : GrowingMap.Shared) : List (Nat × Int) :=
  match s.tabs[s.tr]? with
  | none => []
  | some tb =>
    ((tb.t.keys.zip (GrowingMap.memory s.junk tb.t.vals)).filter (fun x => decide (x.1 ≠ 0))).map
      (fun x => (x.1, (x.2 : Int)))

/-- The results of `makeGraph` with the growing map, like `MakeGraph` otherwise.
(include/load_balancing/sample_partitioner/Sampler.h:294-384, 408) -/
inductive MakeGraphMap (D n : Nat) (tr : Nat → Option Nat) (w : Nat → Nat → Int) (S : List (List Nat)) (size : Nat)
    (junk : Nat → Nat) (ha msize : Nat) : Graph → Prop where
  | intro (T : Nat) (work : Fin T → List Edge) (s : Loop T) (recs : List Nat) (ework : Fin T → List (Nat × Int))
      (a : Assign T) :
      ((List.ofFn work).flatten).Perm (S.flatMap (pairs D tr w)) →
      Relation.ReflTransGen Loop.Step (Loop.init junk ha msize n work) s → s.final →
      partialSum 0 s.recs = some recs →
      ((List.ofFn ework).flatten).Perm (entries s.c.sh) →
      Relation.ReflTransGen (Assign.Step recs) (Assign.init size (recs.getLast?.getD 0) ework) a → a.final →
      MakeGraphMap D n tr w S size junk ha msize ⟨recs, a.adj, a.wts⟩

end Samp
end Verif
