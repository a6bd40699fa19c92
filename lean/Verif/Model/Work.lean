import Mathlib.Data.Multiset.AddSub
import Mathlib.Logic.Relation

/-!
# Parallel work lists

Model of `tbb::parallel_do` with a feeder (/repo/include/mods/parallel_do.h, used through
`tbb::parallel_do(container, body)`) and of `tbb::parallel_for` over a container (no feeding): a bag of
pending items and a bag of running bodies. At every moment any pending item may be started and any running
body may perform its next step, so that all schedules, orders and degrees of parallelism are covered. The
steps of a body are single accesses to shared memory.
-/
namespace Verif
namespace Work

/-- A loop body: `init` starts it on an item, `step` performs one access. `step l s` is `none` if the access
is undefined behaviour, otherwise the new shared state, the rest of the body (`none`: finished) and the
items fed. -/
structure Prog (σ L I : Type) where
  init : I → L
  step : L → σ → Option (σ × Option L × List I)

/-- State of the loop. -/
structure Cfg (σ L I : Type) where
  sh : σ
  queue : Multiset I
  act : Multiset L

variable {σ L I : Type}

/-- One step of the loop. -/
inductive Step (P : Prog σ L I) : Cfg σ L I → Cfg σ L I → Prop
  | start (sh : σ) (i : I) (q : Multiset I) (act : Multiset L) :
      Step P ⟨sh, i ::ₘ q, act⟩ ⟨sh, q, P.init i ::ₘ act⟩
  | run (sh : σ) (q : Multiset I) (l : L) (act : Multiset L) (sh' : σ) (l' : Option L) (fed : List I)
      (h : P.step l sh = some (sh', l', fed)) :
      Step P ⟨sh, q, l ::ₘ act⟩ ⟨sh', (fed : Multiset I) + q, (l'.toList : Multiset L) + act⟩

/-- The loop is finished. -/
def Terminal (c : Cfg σ L I) : Prop := c.queue = 0 ∧ c.act = 0

/-- States reachable when the loop runs on the given items. -/
def Reach (P : Prog σ L I) (sh : σ) (items : Multiset I) (c : Cfg σ L I) : Prop :=
  Relation.ReflTransGen (Step P) ⟨sh, items, 0⟩ c

/-- Some running body is about to do something undefined. -/
def Undef (P : Prog σ L I) (c : Cfg σ L I) : Prop := ∃ l ∈ c.act, P.step l c.sh = none

/-- Final shared states of the loop. -/
def Final (P : Prog σ L I) (sh : σ) (items : Multiset I) (sh' : σ) : Prop :=
  Reach P sh items ⟨sh', 0, 0⟩

end Work
end Verif
