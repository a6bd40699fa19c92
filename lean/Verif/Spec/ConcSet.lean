import Verif.Model.ConcSet
import Mathlib.Data.Finset.Card

/-!
# Specification of a concurrent set
-/
namespace Verif
namespace ConcSet
open Conc

/-- Precondition of the operations: the key is not zero (asserted by the code). -/
def Ok (op : SetOp) : Prop := op.key ≠ 0

/-- Operations on the keys of `K` only. -/
def OkIn (K : Finset Nat) (op : SetOp) : Prop := op.key ≠ 0 ∧ op.key ∈ K

/-- Sequential specification of a set: `insert` returns true exactly for new keys and adds them;
`contains` returns membership. `insert` may instead report Full and do nothing: a set of fixed size
only when it holds `cap` keys, a growing set at any time (the wrapper then enlarges it). -/
def setSpec (growing : Bool) (cap : Nat) (s : Finset Nat) (op : SetOp) (r : SetRet) (s' : Finset Nat) :
    Prop :=
  match op, r with
  | .insert k, .bool true => k ∉ s ∧ s' = insert k s
  | .insert k, .bool false => k ∈ s ∧ s' = s
  | .insert _, .full => s' = s ∧ (growing = true ∨ s.card = cap)
  | .contains k, .bool b => (b = true ↔ k ∈ s) ∧ s' = s
  | .contains _, .full => False

/-- Number of `insert(k)` calls that have returned true. -/
def wins {n : Nat} (k : Nat) (h : List (Ev n SetOp SetRet)) : Nat :=
  h.countP (fun e => match e with
    | .res _ (.insert k') (.bool true) => decide (k' = k)
    | _ => false)

/-- The thread of an event. -/
def thread {n : Nat} : Ev n SetOp SetRet → Fin n
  | .inv t _ => t
  | .res t _ _ => t

end ConcSet
end Verif
