import Verif.Model.Growing

/-!
# Conditions on executions of the growing set

They are used to state when the growing table of Growing_LP.hxx keeps every acknowledged insertion
(C15); the code does not enforce them.
-/
namespace Verif
namespace Growing
open Conc

/-- The handle and the key of an operation. -/
def Op.handle : Op → Nat
  | .insert h _ => h
  | .contains h _ => h

def Op.key : Op → Nat
  | .insert _ k => k
  | .contains _ k => k

/-- Keys are not zero (asserted by the code, LP_Set.hxx:572 and 621). -/
def OkKey (op : Op) : Prop := op.key ≠ 0

variable {n : Nat}

/-- Every handle is used by one thread at a time. -/
def Exclusive (c : Config n Shared Loc Op ConcSet.SetRet) : Prop :=
  ∀ t u A B, c.th t = some A → c.th u = some B → A.op.handle = B.op.handle → t = u

/-- Thread `t` is about to write its key into a free slot that the migration of the table has already
handed out to some thread for copying (line 373 or 381 of Growing_LP.hxx). -/
def Late (c : Config n Shared Loc Op ConcSet.SetRet) (t : Fin n) : Prop :=
  ∃ A h k i cols le lt tb, c.th t = some A ∧ A.loc = .tab h (.cas k i cols) ∧
    c.sh.hs[h]? = some (le, lt) ∧ c.sh.tabs[lt]? = some tb ∧ tb.t.arr[i]? = some 0 ∧ i < tb.copy

/-- Executions in which every handle is used by one thread at a time and no thread performs a late
write. -/
inductive ReachTimely (s : Shared) : Config n Shared Loc Op ConcSet.SetRet → Prop where
  | init : ReachTimely s (Config.init n s)
  | step {c c' : Config n Shared Loc Op ConcSet.SetRet} : ReachTimely s c → Step obj OkKey c c' →
      Exclusive c' → (∀ t, Late c t → c'.th t = c.th t) → ReachTimely s c'

/-- Executions in which every handle is used by one thread at a time. -/
inductive ReachExclusive (s : Shared) : Config n Shared Loc Op ConcSet.SetRet → Prop where
  | init : ReachExclusive s (Config.init n s)
  | step {c c' : Config n Shared Loc Op ConcSet.SetRet} : ReachExclusive s c → Step obj OkKey c c' →
      Exclusive c' → ReachExclusive s c'

/-- At most one thread is inside an `insert`. Lookups are not restricted. -/
def SerialInserts (c : Config n Shared Loc Op ConcSet.SetRet) : Prop :=
  ∀ t u A B i j k l, c.th t = some A → c.th u = some B → A.op = .insert i k → B.op = .insert j l →
    t = u

/-- Executions in which every handle is used by one thread at a time and insertions do not overlap. -/
inductive ReachSerial (s : Shared) : Config n Shared Loc Op ConcSet.SetRet → Prop where
  | init : ReachSerial s (Config.init n s)
  | step {c c' : Config n Shared Loc Op ConcSet.SetRet} : ReachSerial s c → Step obj OkKey c c' →
      Exclusive c' → SerialInserts c' → ReachSerial s c'

/-- `insert(k)` has returned (with true or false) in the history. -/
def Acked (hist : List (Ev n Op ConcSet.SetRet)) (k : Nat) : Prop :=
  ∃ t i b, Ev.res t (.insert i k) (.bool b) ∈ hist

end Growing
end Verif
