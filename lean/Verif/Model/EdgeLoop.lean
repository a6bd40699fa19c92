import Verif.Model.Growing
import Verif.Model.DC

/-!
# Model of the edge extraction with the concurrent growing sets of the code

`/repo/src/lib/DCTriangulator.cpp` 547-561 and 96-180 (`/repo/include/LoadBalancedDCTriangulator.tpp` has the same
code): the calls of `getEdge` for all parts run in parallel and insert into two shared growing sets
(`Verif.Model.Growing`), whose tables are then used (585-589, 602). `Verif.Model.DC` has the same loops with sets
that cannot lose anything. Every thread has one handle per set, constructed before the loops; in the code there are
more handles, which are constructed in 102 and by the first `local()` of a thread in each call (139-140). A thread
that waits for the loop of its call to end may work for this or another call; here the call has ended then and the
thread takes any item.
-/
namespace Verif
namespace Edges
open DC

/-- Program points of a call of `getEdge`: the insertion of the infinite points (103-105) and the body of the loop
(133-177). (src/lib/DCTriangulator.cpp:96-180) -/
inductive Pc where
  | inf (ks : List Nat)
  | run (l : EdgeL)

/-- The insertion a thread is about to call: into the points (`true`) or the simplices, the id, and where it continues
afterwards. (src/lib/DCTriangulator.cpp:104, 163, 166) -/
def pend (T : Tri) : Pc → Option (Bool × Nat × Pc)
  | .inf (k :: ks) => some (true, k, .inf ks)
  | .run (.insS x) => some (false, T.id x, .run (.insV x (T.vs x)))
  | .run (.insV x (v :: vs)) => some (true, v, .run (.insV x vs))
  | _ => none

/-- The other program points: the loop begins (133), or an access of the loop body; result: the marks, where the thread
continues and the new items. (src/lib/DCTriangulator.cpp:133-177) -/
def quiet (T : Tri) (meets : Nat → Bool) (mks : Nat → Nat) :
    Pc → Option ((Nat → Nat) × Option Pc × List Nat)
  | .inf _ => some (mks, none, T.hull)
  | .run l =>
    match edgeStep T meets (nextMark T.mark) (nextMark (nextMark T.mark)) l ⟨mks, ∅, ∅⟩ with
    | none => none
    | some (e, l', fed) => some (e.mks, l'.map Pc.run, fed)

/-- State of the extraction with `N` threads and `P` parts: the sets of the simplices (`false`) and of the points
(`true`) with the insertions in progress, the marks of the parts, the pending calls `(i, none)` and items `(i, some x)`,
where the threads are, and the set a thread is using. (src/lib/DCTriangulator.cpp:547-561) -/
structure Loop (N P : Nat) where
  c : Bool → Conc.Config N Growing.Shared Growing.Loc Growing.Op ConcSet.SetRet
  mks : Fin P → Nat → Nat
  work : List (Fin P × Option Nat)
  body : Fin N → Option (Fin P × Pc)
  cur : Fin N → Option Bool

variable {N P : Nat}

/-- The next step of thread `t`: one atomic access of an insertion, the call of an insertion, another step of the body,
or the thread takes the `n`-th pending call or item. `none`: the step is undefined or there is nothing to do.
(src/lib/DCTriangulator.cpp:96-180, 550-561) -/
def Loop.next (D : Nat) (Ts : Fin P → Tri) (meets : Fin P → Nat → Bool) (s : Loop N P) (t : Fin N) (n : Nat) :
    Option (Loop N P) :=
  match s.cur t with
  | some j =>
    match (s.c j).th t, s.body t with
    | some a, some (i, l) =>
      match Growing.step (s.c j).sh a.loc with
      | none => none
      | some (sh, .inl l) =>
        some { s with
          c := Function.update s.c j
            ({ s.c j with sh := sh, th := Function.update (s.c j).th t (some ⟨a.op, l, a.steps + 1⟩) }) }
      | some (sh, .inr r) =>
        some { s with
          c := Function.update s.c j
            ({ sh := sh, th := Function.update (s.c j).th t none, hist := (s.c j).hist ++ [.res t a.op r] })
          body := Function.update s.body t ((pend (Ts i) l).map fun p => (i, p.2.2))
          cur := Function.update s.cur t none }
    | _, _ => none
  | none =>
    match s.body t with
    | none =>
      match s.work[n]? with
      | none => none
      | some (i, it) =>
        some { s with
          work := s.work.eraseIdx n
          body := Function.update s.body t
            (some (i, match it with | none => .inf (Part.infIds D) | some x => .run (.chk x))) }
    | some (i, l) =>
      match pend (Ts i) l with
      | some (j, k, _) =>
        some { s with
          c := Function.update s.c j
            ({ s.c j with
              th := Function.update (s.c j).th t (some ⟨.insert t k, Growing.obj.start (.insert t k), 0⟩)
              hist := (s.c j).hist ++ [.inv t (.insert t k)] })
          cur := Function.update s.cur t (some j) }
      | none =>
        match quiet (Ts i) (meets i) (s.mks i) l with
        | none => none
        | some (m, l', fed) =>
          some { s with
            mks := Function.update s.mks i m
            work := (fed.map fun x => (i, some x)) ++ s.work
            body := Function.update s.body t (l'.map fun l => (i, l)) }

/-- Steps of the threads in any order. (src/lib/DCTriangulator.cpp:550-561) -/
def Loop.Step (D : Nat) (Ts : Fin P → Tri) (meets : Fin P → Nat → Bool) (s s' : Loop N P) : Prop :=
  ∃ t n, s.next D Ts meets t n = some s'

/-- All calls have ended. (src/lib/DCTriangulator.cpp:561) -/
def Loop.final (s : Loop N P) : Prop := s.work = [] ∧ ∀ t, s.cur t = none ∧ s.body t = none

/-- Number of elements the sets are constructed for, for `n` points. (src/lib/DCTriangulator.cpp:547-548) -/
def capacity (n : Nat) : Bool → Nat
  | true => n / 4
  | false => n

/-- Beginning: one call per part. (src/lib/DCTriangulator.cpp:547-551) -/
def Loop.init (a n : Nat) (Ts : Fin P → Tri) : Loop N P where
  c := fun j => .init N (Growing.new a (capacity n j) N)
  mks := fun i => (Ts i).mks
  work := (List.finRange P).map fun i => (i, none)
  body := fun _ => none
  cur := fun _ => none

/-- The ids in the table a set is reduced to at the end: the entries of `data()` that are not zero.
(src/lib/DCTriangulator.cpp:585-589, 602; include/datastructures/Growing_LP.hxx:57-59) -/
def Loop.ids (s : Loop N P) (j : Bool) : List Nat :=
  match (s.c j).sh.tabs[(s.c j).sh.tr]? with
  | none => []
  | some tb => tb.t.arr.filter fun x => decide (x ≠ 0)

/-- The triangulation of part `i` with the marks at the end. (src/lib/DCTriangulator.cpp:119-120) -/
def Loop.tri (s : Loop N P) (Ts : Fin P → Tri) (i : Fin P) : Tri :=
  { Ts i with mks := s.mks i, mark := nextMark (nextMark (Ts i).mark) }

/-- The possible outcomes of the extraction. (src/lib/DCTriangulator.cpp:547-561) -/
def Extracts (D N a n : Nat) (Ts : Fin P → Tri) (meets : Fin P → Nat → Bool) (s : Loop N P) : Prop :=
  Relation.ReflTransGen (Loop.Step D Ts meets) (Loop.init a n Ts) s ∧ s.final

/-- `_triangulate` as in `Verif.Model.DC`, but with growing sets for the edge simplices and the edge points on every
level; `N` threads work on a level, and the outcomes of the extraction for `P` parts of `n` points are those allowed by
`Res` (`Extracts` in the code). The ids come from the counter `simplexID`, which starts at 1 (C55).
(src/lib/DCTriangulator.cpp:498-608) -/
inductive Triangulate {D : Nat} {K : Type} (A : Params D K) (N : Nat)
    (Res : (P n : Nat) → (Fin P → Tri) → (Fin P → Nat → Bool) → Loop N P → Prop) : Nat → Finset Nat → Tri → Prop
  /-- line 605: base case -/
  | base (len : Nat) (S : Finset Nat) (T : Tri) (hc : ¬ (len - 1 < A.depth ∧ A.cutoff < S.card))
      (hb : A.base S T) : Triangulate A N Res len S T
  /-- lines 511-603: recursive case -/
  | node (len : Nat) (S : Finset Nat) (hc : len - 1 < A.depth ∧ A.cutoff < S.card)
      (ps : List (Part.Partition D K)) (hps : A.split len S ps)
      -- lines 530-542
      (Ts : Fin ps.length → Tri) (hz : ∀ i, 0 ∉ (Ts i).range)
      (hrec : ∀ i : Fin ps.length, Triangulate A N Res (len + 1) ps[i].points (Ts i))
      -- lines 547-561
      (s : Loop N ps.length)
      (hx : Res ps.length S.card Ts (fun i x => meetsOther ps.length i (A.interPart ps ((Ts i).vs x))) s)
      -- lines 584-589
      (E : Tri)
      (hE : A.parEdge = true → Triangulate A N Res (len + 1) (s.ids true).toFinset E)
      (hE' : A.parEdge = false → A.base (s.ids true).toFinset E)
      (hdisj : (E :: List.ofFn (s.tri Ts)).Pairwise fun a b => Disjoint a.range b.range)
      -- line 602
      (R : Tri) (hm : MergeTri A.hash ps (List.ofFn (s.tri Ts)) (s.ids false).toFinset E R) :
      Triangulate A N Res len S R

end Edges
end Verif
