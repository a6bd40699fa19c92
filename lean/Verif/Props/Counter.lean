import Verif.Model.Counter
import Verif.Lemmas.Conc

/-!
# C99: the profiling counters count every event
-/
namespace Verif
namespace Counter
open Conc

variable {n : Nat}

/-- Sum of the increments of a counter whose calls have returned. -/
def counted (x : Nat) : List (Ev n Inc Unit) → Nat
  | [] => 0
  | .res _ i _ :: h => (if i.name = x then i.value else 0) + counted x h
  | .inv _ _ :: h => counted x h

theorem counted_append (x : Nat) : ∀ h g : List (Ev n Inc Unit), counted x (h ++ g) = counted x h + counted x g
  | [], g => by simp [counted]
  | .res _ i _ :: h, g => by simp only [List.cons_append, counted, counted_append x h g]; omega
  | .inv _ _ :: h, g => by simp only [List.cons_append, counted, counted_append x h g]

/-- No two threads are inside an increment of the same counter. -/
def Apart (c : Config n (Nat → Nat) Loc Inc Unit) : Prop :=
  ∀ t u A B, c.th t = some A → c.th u = some B → A.op.name = B.op.name → t = u

/-- Executions in which increments of the same counter do not overlap. -/
inductive ReachApart : Config n (Nat → Nat) Loc Inc Unit → Prop where
  | init : ReachApart (Config.init n fun _ => 0)
  | step {c c' : Config n (Nat → Nat) Loc Inc Unit} : ReachApart c → Step obj (fun _ => True) c c' → Apart c' → ReachApart c'

/-- Program points belong to their calls. -/
def Loc.inc : Loc → Inc
  | .load i => i
  | .store i _ => i

theorem reach_inc {c : Config n (Nat → Nat) Loc Inc Unit} (h : Reach obj (fun _ => True) (fun _ => 0) c) :
    ∀ t A, c.th t = some A → A.loc.inc = A.op := by
  induction h with
  | init => intro t A h; cases h
  | step _ hs ih =>
    intro t A hA
    cases hs with
    | call u op h1 h2 =>
      simp only [Function.update_apply] at hA
      split at hA
      · cases hA; rfl
      · exact ih t A hA
    | internal u a s' l' h1 h2 =>
      simp only [Function.update_apply] at hA
      split at hA
      · cases hA
        have := ih u a h1
        cases hl : a.loc with
        | load i => rw [hl] at h2 this; simp only [obj, step, Option.some.injEq, Prod.mk.injEq, Sum.inl.injEq] at h2; rw [← h2.2]; exact this
        | store i o => rw [hl] at h2; simp [obj, step] at h2
      · exact ih t A hA
    | ret u a s' r h1 h2 =>
      simp only [Function.update_apply] at hA
      split at hA
      · cases hA
      · exact ih t A hA

/-- **C99 (partial).** A counter is never larger than the sum of the increments that have returned, in any execution with any number of
threads. Missing: it may be smaller, see `C99_lost_violated`. -/
theorem C99_never_more_partial {c : Config n (Nat → Nat) Loc Inc Unit} (h : Reach obj (fun _ => True) (fun _ => 0) c) (x : Nat) :
    c.sh x ≤ counted x c.hist := by
  suffices H : c.sh x ≤ counted x c.hist ∧ ∀ t A i o, c.th t = some A → A.loc = .store i o → i.name = x → o ≤ counted x c.hist from H.1
  induction h with
  | init => exact ⟨Nat.zero_le _, fun t A i o hA => by cases hA⟩
  | step hr hs ih =>
    obtain ⟨ih1, ih2⟩ := ih
    have hinc := reach_inc hr
    cases hs with
    | call u op h1 h2 =>
      dsimp only
      rw [counted_append, show counted x [Ev.inv (n := n) (R := Unit) u op] = 0 from rfl, Nat.add_zero]
      refine ⟨ih1, fun t A i o hA hl hi => ?_⟩
      simp only [Function.update_apply] at hA
      split at hA
      · cases hA; cases hl
      · exact ih2 t A i o hA hl hi
    | internal u a s' l' h1 h2 =>
      cases hl : a.loc with
      | load i =>
        rw [hl] at h2
        simp only [obj, step, Option.some.injEq, Prod.mk.injEq, Sum.inl.injEq] at h2
        obtain ⟨rfl, rfl⟩ := h2
        refine ⟨ih1, fun t A j o hA hlA hi => ?_⟩
        simp only [Function.update_apply] at hA
        split at hA
        · cases hA
          cases hlA
          rw [hi]; exact ih1
        · exact ih2 t A j o hA hlA hi
      | store i o => rw [hl] at h2; simp [obj, step] at h2
    | ret u a s' r h1 h2 =>
      cases hl : a.loc with
      | load i => rw [hl] at h2; simp [obj, step] at h2
      | store i o =>
        rw [hl] at h2
        simp only [obj, step, Option.some.injEq, Prod.mk.injEq] at h2
        obtain ⟨rfl, _⟩ := h2
        have hop := hinc u a h1
        rw [hl] at hop
        replace hop : i = a.op := hop
        dsimp only
        rw [counted_append]
        refine ⟨?_, fun t A j o hA hlA hi => ?_⟩
        · by_cases hx : x = i.name
          · rw [if_pos hx]
            have h3 := ih2 u a i o h1 hl hx.symm
            have h4 : counted x [Ev.res u a.op r] = i.value := by simp [counted, ← hop, hx]
            rw [h4]
            exact (Nat.mod_le _ _).trans (by omega)
          · rw [if_neg hx]; omega
        · simp only [Function.update_apply] at hA
          split at hA
          · cases hA
          · have := ih2 t A j o hA hlA hi
            omega

theorem apart_reach {c : Config n (Nat → Nat) Loc Inc Unit} (h : ReachApart c) : Reach obj (fun _ => True) (fun _ => 0) c := by
  induction h with
  | init => exact .init
  | step _ hs _ ih => exact .step ih hs

/-- **C99 (partial).** If increments of the same counter do not overlap, the counter is the sum of the increments that have returned (modulo
the range of the type). Missing: the triangulator increments its counters from many threads without any protection. -/
theorem C99_apart_partial {c : Config n (Nat → Nat) Loc Inc Unit} (h : ReachApart c) (x : Nat) :
    c.sh x = counted x c.hist % 2 ^ 64 := by
  suffices H : c.sh x = counted x c.hist % 2 ^ 64 ∧ ∀ t A i o, c.th t = some A → A.loc = .store i o → i.name = x → o = c.sh x from H.1
  suffices H : Apart c ∧ c.sh x = counted x c.hist % 2 ^ 64 ∧ ∀ t A i o, c.th t = some A → A.loc = .store i o → i.name = x → o = c.sh x from H.2
  induction h with
  | init => exact ⟨fun t u A B hA => (by cases hA), rfl, fun t A i o hA => (by cases hA)⟩
  | step hr hs hap ih =>
    obtain ⟨ih0, ih1, ih2⟩ := ih
    have hinc := reach_inc (apart_reach hr)
    refine ⟨hap, ?_⟩
    cases hs with
    | call u op h1 h2 =>
      dsimp only
      rw [counted_append, show counted x [Ev.inv (n := n) (R := Unit) u op] = 0 from rfl, Nat.add_zero]
      refine ⟨ih1, fun t A i o hA hl hi => ?_⟩
      simp only [Function.update_apply] at hA
      split at hA
      · cases hA; cases hl
      · exact ih2 t A i o hA hl hi
    | internal u a s' l' h1 h2 =>
      cases hl : a.loc with
      | load i =>
        rw [hl] at h2
        simp only [obj, step, Option.some.injEq, Prod.mk.injEq, Sum.inl.injEq] at h2
        obtain ⟨rfl, rfl⟩ := h2
        refine ⟨ih1, fun t A j o hA hlA hi => ?_⟩
        simp only [Function.update_apply] at hA
        split at hA
        · cases hA
          cases hlA
          rw [hi]
        · exact ih2 t A j o hA hlA hi
      | store i o => rw [hl] at h2; simp [obj, step] at h2
    | ret u a s' r h1 h2 =>
      cases hl : a.loc with
      | load i => rw [hl] at h2; simp [obj, step] at h2
      | store i o =>
        rw [hl] at h2
        simp only [obj, step, Option.some.injEq, Prod.mk.injEq] at h2
        obtain ⟨rfl, _⟩ := h2
        have hop := hinc u a h1
        rw [hl] at hop
        replace hop : i = a.op := hop
        dsimp only
        rw [counted_append]
        refine ⟨?_, fun t A j o' hA hlA hi => ?_⟩
        · by_cases hx : x = i.name
          · rw [if_pos hx]
            have h3 := ih2 u a i o h1 hl hx.symm
            have h4 : counted x [Ev.res u a.op r] = i.value := by simp [counted, ← hop, hx]
            rw [h4, h3, ih1]
            omega
          · rw [if_neg hx]
            have h4 : counted x [Ev.res u a.op r] = 0 := by simp [counted, ← hop, Ne.symm hx]
            rw [h4, ih1, Nat.add_zero]
        · simp only [Function.update_apply] at hA
          split at hA
          · cases hA
          · rename_i htu
            by_cases hx : x = i.name
            · exfalso
              have hj := hinc t A hA
              rw [hlA] at hj
              replace hj : j = A.op := hj
              exact htu (ih0 t u A a hA h1 (by rw [← hj, ← hop, hi, hx]))
            · rw [if_neg hx]
              exact ih2 t A j o' hA hlA hi

/-- **C99 violated.** Two threads count one event each; both calls have returned and the counter is 1. -/
theorem C99_lost_violated : ∃ c : Config 2 (Nat → Nat) Loc Inc Unit, Reach obj (fun _ => True) (fun _ => 0) c ∧ c.quiescent ∧
    counted 0 c.hist = 2 ∧ c.sh 0 = 1 := by
  have h : ∃ c, exec obj (fun _ => true) (Config.init 2 fun _ => 0) [.call 0 ⟨0, 1⟩, .call 1 ⟨0, 1⟩, .run 0, .run 1, .run 0, .run 1] = some c ∧
      (∀ t, c.th t = none) ∧ counted 0 c.hist = 2 ∧ c.sh 0 = 1 := ⟨_, rfl, by decide, by decide, by decide⟩
  obtain ⟨c, hc, h1, h2, h3⟩ := h
  refine ⟨c, ?_, h1, h2, h3⟩
  have := exec_reach (o := obj) (ok := fun _ => true) .init hc
  simpa using this

/-- Many increments can be lost: one slow thread resets a counter. -/
theorem C99_reset_violated (k : Nat) : ∃ c : Config 2 (Nat → Nat) Loc Inc Unit, Reach obj (fun _ => True) (fun _ => 0) c ∧ c.quiescent ∧
    counted 0 c.hist = k + 1 ∧ c.sh 0 = 1 := by
  -- thread 0 has loaded the value 0; thread 1 performs `k` increments
  have H : ∀ k, ∃ c : Config 2 (Nat → Nat) Loc Inc Unit, Reach obj (fun _ => True) (fun _ => 0) c ∧
      c.th 0 = some ⟨⟨0, 1⟩, .store ⟨0, 1⟩ 0, 1⟩ ∧ c.th 1 = none ∧ counted 0 c.hist = k := by
    intro k
    induction k with
    | zero =>
      refine ⟨_, .step (.step .init (.call _ 0 ⟨0, 1⟩ rfl trivial)) (.internal _ 0 ⟨⟨0, 1⟩, .load ⟨0, 1⟩, 0⟩ _ _ rfl rfl), rfl, rfl, rfl⟩
    | succ k ih =>
      obtain ⟨c, hc, h0, h1, hk⟩ := ih
      refine ⟨_, .step (.step (.step hc (.call _ 1 ⟨0, 1⟩ h1 trivial)) (.internal _ 1 ⟨⟨0, 1⟩, .load ⟨0, 1⟩, 0⟩ _ _ rfl rfl))
        (.ret _ 1 ⟨⟨0, 1⟩, .store ⟨0, 1⟩ (c.sh 0), 1⟩ _ () rfl rfl), ?_, rfl, ?_⟩
      · simpa using h0
      · simp only [counted_append, hk]
        rfl
  obtain ⟨c, hc, h0, h1, hk⟩ := H k
  refine ⟨_, .step hc (.ret _ 0 _ _ () h0 rfl), ?_, ?_, rfl⟩
  · intro t
    match t with
    | 0 => rfl
    | 1 => simpa using h1
  · simp only [counted_append, hk]
    rfl

/-- Two threads that take turns, with increments of another counter in between. -/
example : ∃ c : Config 2 (Nat → Nat) Loc Inc Unit, ReachApart c ∧ counted 0 c.hist = 3 ∧ c.sh 0 = 3 ∧ c.sh 7 = 5 := by
  have ap : ∀ (c : Config 2 (Nat → Nat) Loc Inc Unit), (∀ A B, c.th 0 = some A → c.th 1 = some B → A.op.name ≠ B.op.name) → Apart c := by
    intro c h t u A B hA hB hn
    match t, u with
    | 0, 0 => rfl
    | 1, 1 => rfl
    | 0, 1 => exact absurd hn (h A B hA hB)
    | 1, 0 => exact absurd hn.symm (h B A hB hA)
  refine ⟨_, .step (.step (.step (.step (.step (.step (.step (.step (.step .init
    (.call _ 0 ⟨0, 1⟩ rfl trivial) (ap _ fun A B hA hB => by cases hB))
    (.internal _ 0 ⟨⟨0, 1⟩, .load ⟨0, 1⟩, 0⟩ _ _ rfl rfl) (ap _ fun A B hA hB => by cases hB))
    (.call _ 1 ⟨7, 5⟩ rfl trivial) (ap _ fun A B hA hB => by cases hA; cases hB; decide))
    (.internal _ 1 ⟨⟨7, 5⟩, .load ⟨7, 5⟩, 0⟩ _ _ rfl rfl) (ap _ fun A B hA hB => by cases hA; cases hB; decide))
    (.ret _ 0 ⟨⟨0, 1⟩, .store ⟨0, 1⟩ 0, 1⟩ _ () rfl rfl) (ap _ fun A B hA hB => by cases hA))
    (.ret _ 1 ⟨⟨7, 5⟩, .store ⟨7, 5⟩ 0, 1⟩ _ () rfl rfl) (ap _ fun A B hA hB => by cases hA))
    (.call _ 1 ⟨0, 2⟩ rfl trivial) (ap _ fun A B hA hB => by cases hA))
    (.internal _ 1 ⟨⟨0, 2⟩, .load ⟨0, 2⟩, 0⟩ _ _ rfl rfl) (ap _ fun A B hA hB => by cases hA))
    (.ret _ 1 ⟨⟨0, 2⟩, .store ⟨0, 2⟩ 1, 1⟩ _ () rfl rfl) (ap _ fun A B hA hB => by cases hA), by decide, by decide, by decide⟩

end Counter
end Verif
