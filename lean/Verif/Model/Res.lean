/-!
# Outcomes of modelled C++ calls

A C++ call returns, runs into undefined behaviour, or does not return.  Loops without a static
bound are modelled with a fuel argument (the number of iterations they may take).
-/
namespace Verif

/-- Outcome of running a modelled call with a given amount of fuel.
Simplification: not modelled after a particular place in `/repo`; it represents "the call
returned `a`", "the call performed an operation with undefined behaviour" and "the call has not
returned yet". -/
inductive Res (α : Type _) where
  | done (a : α)
  | ub
  | timeout
  deriving Repr, DecidableEq

namespace Res

/-- Sequencing of calls. -/
def bind {α β : Type _} (r : Res α) (f : α → Res β) : Res β :=
  match r with
  | done a => f a
  | ub => ub
  | timeout => timeout

instance : Monad Res where
  pure := done
  bind := bind

/-- Post-processing of a returned value. -/
def map' {α β : Type _} (f : α → β) (r : Res α) : Res β := r.bind (fun a => done (f a))

@[simp] theorem bind_done {α β : Type _} (a : α) (f : α → Res β) : (done a).bind f = f a := rfl
@[simp] theorem bind_ub {α β : Type _} (f : α → Res β) : (ub : Res α).bind f = ub := rfl
@[simp] theorem bind_timeout {α β : Type _} (f : α → Res β) :
    (timeout : Res α).bind f = timeout := rfl

end Res

/-- The call `f` returns `a` (with every sufficiently large fuel). -/
def Returns {α : Type _} (f : Nat → Res α) (a : α) : Prop := ∃ n, ∀ m, n ≤ m → f m = .done a

/-- The call `f` never returns. -/
def Diverges {α : Type _} (f : Nat → Res α) : Prop := ∀ n, f n = .timeout

/-- The call `f` has undefined behaviour. -/
def Undefined {α : Type _} (f : Nat → Res α) : Prop := ∃ n, ∀ m, n ≤ m → f m = .ub

theorem Returns.unique {α : Type _} {f : Nat → Res α} {a b : α}
    (h₁ : Returns f a) (h₂ : Returns f b) : a = b := by
  obtain ⟨n, hn⟩ := h₁
  obtain ⟨m, hm⟩ := h₂
  have e1 := hn (max n m) (Nat.le_max_left _ _)
  have e2 := hm (max n m) (Nat.le_max_right _ _)
  rw [e1] at e2
  injection e2

theorem Returns.not_diverges {α : Type _} {f : Nat → Res α} {a : α} (h : Returns f a) :
    ¬ Diverges f := by
  obtain ⟨n, hn⟩ := h
  intro hd
  have := hn n (Nat.le_refl _)
  rw [hd n] at this
  cases this

theorem Returns.not_undefined {α : Type _} {f : Nat → Res α} {a : α} (h : Returns f a) :
    ¬ Undefined f := by
  obtain ⟨n, hn⟩ := h
  rintro ⟨m, hm⟩
  have e1 := hn (max n m) (Nat.le_max_left _ _)
  have e2 := hm (max n m) (Nat.le_max_right _ _)
  rw [e1] at e2
  cases e2

theorem Returns.bind {α β : Type _} {f : Nat → Res α} {g : Nat → α → Res β} {a : α} {b : β}
    (h₁ : Returns f a) (h₂ : Returns (fun n => g n a) b) :
    Returns (fun n => (f n).bind (g n)) b := by
  obtain ⟨n, hn⟩ := h₁
  obtain ⟨m, hm⟩ := h₂
  refine ⟨max n m, fun k hk => ?_⟩
  simp only [hn k (Nat.le_trans (Nat.le_max_left _ _) hk), Res.bind_done]
  exact hm k (Nat.le_trans (Nat.le_max_right _ _) hk)

theorem Returns.pure {α : Type _} (a : α) : Returns (fun _ => Res.done a) a :=
  ⟨0, fun _ _ => rfl⟩

theorem Returns.map {α β : Type _} {f : Nat → Res α} {a : α} (h : Returns f a) (g : α → β) :
    Returns (fun n => (f n).bind (fun x => Res.done (g x))) (g a) :=
  h.bind (g := fun _ x => Res.done (g x)) (Returns.pure _)

end Verif
