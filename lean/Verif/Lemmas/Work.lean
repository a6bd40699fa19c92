import Verif.Model.Work
import Mathlib.Order.WellFounded
import Mathlib.Data.Multiset.ZeroCons

/-! Proof rules for parallel work lists. -/
namespace Verif
namespace Work
variable {σ L I : Type}

/-- Invariants. -/
theorem Reach.invariant {P : Prog σ L I} {sh : σ} {items : Multiset I} {c : Cfg σ L I}
    (h : Reach P sh items c) (J : Cfg σ L I → Prop) (init : J ⟨sh, items, 0⟩)
    (start : ∀ sh i q act, J ⟨sh, i ::ₘ q, act⟩ → J ⟨sh, q, P.init i ::ₘ act⟩)
    (run : ∀ sh q l act sh' l' fed, P.step l sh = some (sh', some l', fed) → J ⟨sh, q, l ::ₘ act⟩ →
      J ⟨sh', (fed : Multiset I) + q, l' ::ₘ act⟩)
    (fin : ∀ sh q l act sh' fed, P.step l sh = some (sh', none, fed) → J ⟨sh, q, l ::ₘ act⟩ →
      J ⟨sh', (fed : Multiset I) + q, act⟩) : J c := by
  induction h with
  | refl => exact init
  | tail _ hs ih =>
    cases hs with
    | start sh i q act => exact start _ _ _ _ ih
    | run sh q l act sh' l' fed h =>
      cases l' with
      | none =>
        have := fin _ _ _ _ _ _ h ih
        simpa using this
      | some l' =>
        have := run _ _ _ _ _ _ _ h ih
        simpa [Option.toList, Multiset.singleton_add] using this

/-- A loop whose next access is defined is finished or can go on. -/
theorem progress {P : Prog σ L I} {c : Cfg σ L I} (hu : ¬ Undef P c) : Terminal c ∨ ∃ c', Step P c c' := by
  obtain ⟨sh, q, act⟩ := c
  rcases q.empty_or_exists_mem with hq | ⟨i, hi⟩
  · rcases act.empty_or_exists_mem with ha | ⟨l, hl⟩
    · exact Or.inl ⟨hq, ha⟩
    · right
      obtain ⟨act', rfl⟩ := Multiset.exists_cons_of_mem hl
      cases h : P.step l sh with
      | none => exact absurd ⟨l, hl, h⟩ hu
      | some r =>
        obtain ⟨sh', l', fed⟩ := r
        exact ⟨_, .run _ _ _ _ _ _ _ h⟩
  · right
    obtain ⟨q', rfl⟩ := Multiset.exists_cons_of_mem hi
    exact ⟨_, .start _ _ _ _⟩

/-- Termination by a well-founded measure: there is no infinite execution. -/
theorem no_infinite {P : Prog σ L I} {α : Type} (r : α → α → Prop) (wf : WellFounded r)
    (μ : Cfg σ L I → α) (h : ∀ c c', Step P c c' → r (μ c') (μ c)) :
    ¬ ∃ f : Nat → Cfg σ L I, ∀ k, Step P (f k) (f (k + 1)) := by
  rintro ⟨f, hf⟩
  have key : ∀ a, ∀ k, μ (f k) = a → False := by
    intro a
    induction a using wf.induction with
    | _ a ih =>
      intro k hk
      exact ih (μ (f (k + 1))) (hk ▸ h _ _ (hf k)) (k + 1) rfl
  exact key _ 0 rfl

/-- Steps only decrease the measure, so a final state is reached from every reachable state if nothing
undefined happens. -/
theorem exists_terminal {P : Prog σ L I} {α : Type} (r : α → α → Prop) (wf : WellFounded r)
    (μ : Cfg σ L I → α) (h : ∀ c c', Step P c c' → r (μ c') (μ c)) (c : Cfg σ L I)
    (hu : ∀ c', Relation.ReflTransGen (Step P) c c' → ¬ Undef P c') :
    ∃ c', Relation.ReflTransGen (Step P) c c' ∧ Terminal c' := by
  have key : ∀ a, ∀ c, μ c = a → (∀ c', Relation.ReflTransGen (Step P) c c' → ¬ Undef P c') →
      ∃ c', Relation.ReflTransGen (Step P) c c' ∧ Terminal c' := by
    intro a
    induction a using wf.induction with
    | _ a ih =>
      intro c hc hu
      rcases progress (hu c .refl) with ht | ⟨c', hs⟩
      · exact ⟨c, .refl, ht⟩
      · obtain ⟨c'', h1, h2⟩ := ih (μ c') (hc ▸ h _ _ hs) c' rfl
          (fun c'' h' => hu c'' (Relation.ReflTransGen.head hs h'))
        exact ⟨c'', Relation.ReflTransGen.head hs h1, h2⟩
  exact key _ c rfl hu

theorem exists_mem_cons {α : Type} (a : α) (s : Multiset α) (p : α → Prop) :
    (∃ l ∈ a ::ₘ s, p l) ↔ p a ∨ ∃ l ∈ s, p l := by
  simp [Multiset.mem_cons, or_and_right, exists_or]

theorem forall_mem_cons {α : Type} (a : α) (s : Multiset α) (p : α → Prop) :
    (∀ l ∈ a ::ₘ s, p l) ↔ p a ∧ ∀ l ∈ s, p l := by
  simp [Multiset.mem_cons, or_imp, forall_and]

end Work
end Verif
