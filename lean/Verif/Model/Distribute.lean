import Verif.Model.Growing
import Verif.Model.Partitioner

/-!
# Model of the concurrent distribution of the points to the parts

`/repo/include/load_balancing/GridIntersectionChecker.h` 91-124: one growing concurrent set per part
(`Verif.Model.Growing`), filled by a `tbb::parallel_for` over the ids. Every thread has one handle per part, all
constructed before the loop; in the code a thread constructs its handle when it gets its first point of the part (112).
`BoundsIntersectionChecker.h` 35-60, `kWaySplitter.h` 62-88 and `sample_partitioner/HyperplaneBipartitioner.h` 102-125
have the same loop; the first two construct a new handle for every point, the last one has two sets and inserts the
infinite points as well.
-/
namespace Verif
namespace Dist

/-- State of the loop with `T` threads and `k` parts: the sets with the insertions in progress, the ids the threads
have still to process and the part whose set a thread is using.
(include/load_balancing/GridIntersectionChecker.h:91-116) -/
structure Loop (T k : Nat) where
  c : Fin k → Conc.Config T Growing.Shared Growing.Loc Growing.Op ConcSet.SetRet
  todo : Fin T → List Nat
  cur : Fin T → Option (Fin k)

variable {T k : Nat}

/-- The next step of thread `t`: one atomic access of an insertion, the call of the next insertion (110-113), or
an infinite point is skipped (109). `none`: the thread has finished or its next step is undefined.
(include/load_balancing/GridIntersectionChecker.h:107-116) -/
def Loop.next (D : Nat) (part : Nat → Fin k) (s : Loop T k) (t : Fin T) : Option (Loop T k) :=
  match s.cur t with
  | some j =>
    match (s.c j).th t with
    | none => none
    | some a =>
      match Growing.step (s.c j).sh a.loc with
      | none => none
      | some (sh, .inl l) =>
        some { s with
          c := Function.update s.c j
            ({ s.c j with sh := sh, th := Function.update (s.c j).th t (some ⟨a.op, l, a.steps + 1⟩) }) }
      | some (sh, .inr r) =>
        some { s with
          c := Function.update s.c j
            ({ sh := sh, th := Function.update (s.c j).th t none, hist := (s.c j).hist ++ [.res t a.op r] })
          cur := Function.update s.cur t none }
  | none =>
    match s.todo t with
    | [] => none
    | id :: l =>
      if Part.isFinite D id then
        some {
          c := Function.update s.c (part id)
            ({ s.c (part id) with
              th := Function.update (s.c (part id)).th t
                (some ⟨.insert t id, Growing.obj.start (.insert t id), 0⟩)
              hist := (s.c (part id)).hist ++ [.inv t (.insert t id)] })
          todo := Function.update s.todo t l
          cur := Function.update s.cur t (some (part id)) }
      else some { s with todo := Function.update s.todo t l }

/-- Steps of the threads in any order. (include/load_balancing/GridIntersectionChecker.h:107-116) -/
def Loop.Step (D : Nat) (part : Nat → Fin k) (s s' : Loop T k) : Prop := ∃ t, s.next D part t = some s'

/-- All threads are done. (include/load_balancing/GridIntersectionChecker.h:116) -/
def Loop.final (s : Loop T k) : Prop := ∀ t, s.cur t = none ∧ s.todo t = []

/-- Beginning of the loop: the sets are constructed for `size` ids, `ids.size()/partitions` in the code.
(include/load_balancing/GridIntersectionChecker.h:91-104) -/
def Loop.init (a size : Nat) (work : Fin T → List Nat) : Loop T k :=
  ⟨fun _ => .init T (Growing.new a size T), work, fun _ => none⟩

/-- The ids of part `j`: the entries of `idsets[j].data()`, that is `g_table_r`, that are not zero.
(include/load_balancing/GridIntersectionChecker.h:121-124; include/datastructures/Growing_LP.hxx:57-59) -/
def Loop.ids (s : Loop T k) (j : Fin k) : List Nat :=
  match (s.c j).sh.tabs[(s.c j).sh.tr]? with
  | none => []
  | some tb => tb.t.arr.filter fun x => decide (x ≠ 0)

/-- The possible outcomes for a list of ids that is handed out to `T` threads in any way.
(include/load_balancing/GridIntersectionChecker.h:85-124) -/
def Distributes (D k T a : Nat) (part : Nat → Fin k) (ids : List Nat) (s : Loop T k) : Prop :=
  ∃ work : Fin T → List Nat, ((List.ofFn work).flatten).Perm ids ∧
    Relation.ReflTransGen (Loop.Step D part) (Loop.init a (ids.length / k) work) s ∧ s.final

end Dist
end Verif
