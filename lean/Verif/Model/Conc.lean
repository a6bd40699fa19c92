import Mathlib.Data.Finset.Basic
import Mathlib.Logic.Function.Basic

/-!
# Concurrent objects: executions and linearizability

A concurrent data structure of `/repo` is modelled by its shared state and, for every operation, a
sequential program whose steps are the individual atomic accesses (loads, stores, compare-and-swaps,
fetch-and-adds) to the shared state. An execution interleaves the steps of any number of threads in
any order. Memory is sequentially consistent (see DESIGN.md). This file is the general framework, it
does not model a particular part of `/repo`.
-/
namespace Verif
namespace Conc

/-- A concurrent object: `start op` is the local state at the beginning of an operation and
`step s l` performs the next atomic step of a thread with local state `l`. Its result is `none` for
undefined behaviour, otherwise the new shared state together with the new local state or the value
the operation returns. -/
structure Obj (S L Op R : Type) where
  start : Op → L
  step : S → L → Option (S × (L ⊕ R))

/-- Events of a history: thread `t` calls an operation, respectively returns from it. -/
inductive Ev (n : Nat) (Op R : Type) where
  | inv (t : Fin n) (op : Op)
  | res (t : Fin n) (op : Op) (r : R)
  deriving DecidableEq

/-- A thread inside an operation: the operation, its local state and the number of own steps it has
taken in this operation. -/
structure Active (L Op : Type) where
  op : Op
  loc : L
  steps : Nat

/-- A state of an execution with `n` threads: shared state, the state of the threads (`none`: not
inside an operation) and the history so far. -/
structure Config (n : Nat) (S L Op R : Type) where
  sh : S
  th : Fin n → Option (Active L Op)
  hist : List (Ev n Op R)

variable {n : Nat} {S L Op R : Type}

/-- One step of an execution: a thread outside of an operation calls any operation that satisfies
the precondition `ok`, or a thread inside an operation performs its next atomic step. -/
inductive Step (o : Obj S L Op R) (ok : Op → Prop) : Config n S L Op R → Config n S L Op R → Prop where
  | call (c : Config n S L Op R) (t : Fin n) (op : Op) : c.th t = none → ok op →
      Step o ok c { c with th := Function.update c.th t (some ⟨op, o.start op, 0⟩),
                           hist := c.hist ++ [.inv t op] }
  | internal (c : Config n S L Op R) (t : Fin n) (a : Active L Op) (s' : S) (l' : L) :
      c.th t = some a → o.step c.sh a.loc = some (s', .inl l') →
      Step o ok c { c with sh := s', th := Function.update c.th t (some ⟨a.op, l', a.steps + 1⟩) }
  | ret (c : Config n S L Op R) (t : Fin n) (a : Active L Op) (s' : S) (r : R) :
      c.th t = some a → o.step c.sh a.loc = some (s', .inr r) →
      Step o ok c { sh := s', th := Function.update c.th t none,
                    hist := c.hist ++ [.res t a.op r] }

/-- Initial state: no thread is inside an operation. -/
def Config.init (n : Nat) (s : S) : Config n S L Op R := { sh := s, th := fun _ => none, hist := [] }

/-- The states reachable by some interleaving from the initial shared state `s`. -/
inductive Reach (o : Obj S L Op R) (ok : Op → Prop) (s : S) : Config n S L Op R → Prop where
  | init : Reach o ok s (Config.init n s)
  | step {c c' : Config n S L Op R} : Reach o ok s c → Step o ok c c' → Reach o ok s c'

/-- Some thread's next step is undefined. -/
def Config.undef (o : Obj S L Op R) (c : Config n S L Op R) : Prop :=
  ∃ t a, c.th t = some a ∧ o.step c.sh a.loc = none

/-- No thread is inside an operation. -/
def Config.quiescent (c : Config n S L Op R) : Prop := ∀ t, c.th t = none

/-! ## Linearizability -/

/-- Events of a history augmented with linearization points. -/
inductive LEv (n : Nat) (Op R : Type) where
  | vis (e : Ev n Op R)
  | lin (t : Fin n) (op : Op) (r : R)

/-- The visible part of an event. -/
def LEv.visible : LEv n Op R → Option (Ev n Op R)
  | .vis e => some e
  | .lin .. => none

/-- Status of a thread in an augmented history. -/
inductive Status (Op R : Type) where
  | idle
  | pending (op : Op)
  | linearized (op : Op) (r : R)

/-- Augmented histories that are legal for a sequential specification `spec s op r s'` ("`op` may
return `r` in state `s` and leaves `s'`"): every operation takes effect atomically, at one point
between its call and its return, in a way that the specification allows. The last arguments are
the status of the threads and the state of the specification at the end. -/
inductive Legal {σ : Type} (spec : σ → Op → R → σ → Prop) (s0 : σ) :
    List (LEv n Op R) → (Fin n → Status Op R) → σ → Prop where
  | nil : Legal spec s0 [] (fun _ => .idle) s0
  | inv {e st s} (t : Fin n) (op : Op) : Legal spec s0 e st s → st t = .idle →
      Legal spec s0 (e ++ [.vis (.inv t op)]) (Function.update st t (.pending op)) s
  | lin {e st s s'} (t : Fin n) (op : Op) (r : R) : Legal spec s0 e st s → st t = .pending op →
      spec s op r s' →
      Legal spec s0 (e ++ [.lin t op r]) (Function.update st t (.linearized op r)) s'
  | res {e st s} (t : Fin n) (op : Op) (r : R) : Legal spec s0 e st s → st t = .linearized op r →
      Legal spec s0 (e ++ [.vis (.res t op r)]) (Function.update st t .idle) s

/-- A history is linearizable with respect to a sequential specification and its initial state, if
linearization points can be inserted such that it becomes legal. -/
def Linearizable {σ : Type} (spec : σ → Op → R → σ → Prop) (s0 : σ) (h : List (Ev n Op R)) : Prop :=
  ∃ e st s, Legal spec s0 e st s ∧ e.filterMap LEv.visible = h

end Conc
end Verif
