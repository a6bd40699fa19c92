import Verif.Model.Growing
import Verif.Lemmas.Conc
import Verif.Lemmas.Probe
import Verif.Lemmas.ConcMap

/-!
# Invariants of the growing concurrent hash set
-/
namespace Verif
namespace Growing
open Conc
open ConcMap (upd_cases append_singleton_split)

/-- Whether an operation inserts, and its key. -/
def opKey : Op → Bool × Nat
  | .insert _ k => (true, k)
  | .contains _ k => (false, k)

def contKey : Cont → Bool × Nat
  | .check k _ => (true, k)
  | .ins k => (true, k)
  | .restart k => (true, k)
  | .con k => (false, k)

def setKey : ConcSet.Loc → Bool × Nat
  | .check k => (true, k)
  | .probe k _ _ => (true, k)
  | .cas k _ _ => (true, k)
  | .incr k => (true, k)
  | .look k _ => (false, k)

/-- The operation a location belongs to. -/
def locKey : Loc → Bool × Nat
  | .ins0 _ k => (true, k)
  | .con0 _ k => (false, k)
  | .gt1 _ c => contKey c
  | .gt2 _ c => contKey c
  | .tab _ l => setKey l
  | .g1 _ c => contKey c
  | .g2 _ _ c => contKey c
  | .mig _ _ _ c => contKey c
  | .g8 _ _ c => contKey c
  | .g9 _ _ c => contKey c

/-- The key a helper is moving. -/
def moving : Loc → Nat → Prop
  | .mig _ _ (.probe k _ _ _) _, x => x = k
  | .mig _ _ (.cas k _ _ _) _, x => x = k
  | _, _ => False

/-- `x` is stored in some table. -/
def Stored (s : Shared) (x : Nat) : Prop := ∃ tb ∈ s.tabs, x ∈ tb.t.arr

theorem mem_set_elim {α : Type} {l : List α} {i : Nat} {a x : α} (h : x ∈ l.set i a) :
    x ∈ l ∨ x = a := List.mem_or_eq_of_mem_set h

theorem setStep {s s' : ConcSet.Shared} {l : ConcSet.Loc} {out : ConcSet.Loc ⊕ ConcSet.SetRet}
    (h : ConcSet.step true s l = some (s', out)) :
    (∀ x ∈ s'.arr, x ∈ s.arr ∨ (true, x) = setKey l) ∧
    (∀ l', out = .inl l' → setKey l' = setKey l) ∧
    (∀ r, out = .inr r → r = .full → (∃ k, l = .check k) ∨ ∃ k i c, l = .probe k i c) ∧
    (out = .inr (.bool true) → setKey l = (false, (setKey l).2) → (setKey l).2 ∈ s.arr) := by
  cases l with
  | check k =>
    simp only [ConcSet.step] at h
    split at h
    · simp only [Option.some.injEq, Prod.mk.injEq] at h
      obtain ⟨rfl, rfl⟩ := h
      simp [setKey]
      exact fun x hx => Or.inl hx
    · split at h
      · simp_all
      · simp only [Option.some.injEq, Prod.mk.injEq] at h
        obtain ⟨rfl, rfl⟩ := h
        simp [setKey]
        exact fun x hx => Or.inl hx
  | probe k idx cols =>
    simp only [ConcSet.step] at h
    split at h
    · simp only [Option.some.injEq, Prod.mk.injEq] at h
      obtain ⟨rfl, rfl⟩ := h
      simp [setKey]
      exact fun x hx => Or.inl hx
    · split at h
      · cases h
      · split at h
        · simp only [Option.some.injEq, Prod.mk.injEq] at h
          obtain ⟨rfl, rfl⟩ := h
          simp [setKey]
          exact fun x hx => Or.inl hx
        · split at h <;>
          · simp only [Option.some.injEq, Prod.mk.injEq] at h
            obtain ⟨rfl, rfl⟩ := h
            simp [setKey]
            exact fun x hx => Or.inl hx
  | cas k i cols =>
    simp only [ConcSet.step] at h
    split at h
    · cases h
    · split at h
      · simp only [Option.some.injEq, Prod.mk.injEq] at h
        obtain ⟨rfl, rfl⟩ := h
        simp [setKey]
        exact fun x hx => mem_set_elim hx
      · split at h <;>
        · simp only [Option.some.injEq, Prod.mk.injEq] at h
          obtain ⟨rfl, rfl⟩ := h
          simp [setKey]
          exact fun x hx => Or.inl hx
  | incr k =>
    simp only [ConcSet.step, Option.some.injEq, Prod.mk.injEq] at h
    obtain ⟨rfl, rfl⟩ := h
    simp [setKey]
    exact fun x hx => Or.inl hx
  | look k idx =>
    simp only [ConcSet.step] at h
    split at h
    · cases h
    · rename_i probed hp
      split at h
      · rename_i hk
        simp only [Option.some.injEq, Prod.mk.injEq] at h
        obtain ⟨rfl, rfl⟩ := h
        simp [setKey]
        rw [← hk]
        exact List.mem_of_getElem? hp
      · split at h <;>
        · simp only [Option.some.injEq, Prod.mk.injEq] at h
          obtain ⟨rfl, rfl⟩ := h
          simp [setKey]

theorem migStep {s s' : Migrate.Shared} {l : Migrate.Loc} {out : Migrate.Loc ⊕ Unit}
    (h : Migrate.step s l = some (s', out)) (hh w w' : Nat) (c : Cont) :
    (∀ x ∈ s'.new.arr, x ∈ s.new.arr ∨ moving (.mig hh w l c) x) ∧
    (∀ l', out = .inl l' → ∀ x, moving (.mig hh w' l' c) x → x ∈ s.old ∨ moving (.mig hh w l c) x) := by
  have hnext : ∀ i e x, ¬ moving (.mig hh w' (Migrate.next i e) c) x := by
    intro i e x
    unfold Migrate.next
    split <;> exact id
  have triv : ∀ x : Nat, ¬ False ∨ False := fun _ => Or.inl id
  cases l with
  | enter =>
    simp only [Migrate.step, Option.some.injEq, Prod.mk.injEq] at h
    obtain ⟨rfl, rfl⟩ := h
    exact ⟨fun x hx => Or.inl hx, fun l' hl x hx => by cases hl; exact hx.elim⟩
  | claim =>
    simp only [Migrate.step] at h
    split at h <;>
    · simp only [Option.some.injEq, Prod.mk.injEq] at h
      obtain ⟨rfl, rfl⟩ := h
      exact ⟨fun x hx => Or.inl hx, fun l' hl x hx => by cases hl; exact hx.elim⟩
  | slot i e =>
    simp only [Migrate.step] at h
    split at h
    · cases h
    · rename_i v hv
      split at h
      · simp only [Option.some.injEq, Prod.mk.injEq] at h
        obtain ⟨rfl, rfl⟩ := h
        refine ⟨fun x hx => Or.inl hx, fun l' hl x hx => ?_⟩
        cases hl
        have : x = v := hx
        rw [this]
        exact Or.inl (List.mem_of_getElem? hv)
      · simp only [Option.some.injEq, Prod.mk.injEq] at h
        obtain ⟨rfl, rfl⟩ := h
        exact ⟨fun x hx => Or.inl hx, fun l' hl x hx => by cases hl; exact (hnext _ _ _ hx).elim⟩
  | probe k idx i e =>
    simp only [Migrate.step] at h
    split at h
    · cases h
    · split at h
      · simp only [Option.some.injEq, Prod.mk.injEq] at h
        obtain ⟨rfl, rfl⟩ := h
        exact ⟨fun x hx => Or.inl hx, fun l' hl x hx => by cases hl; exact (hnext _ _ _ hx).elim⟩
      · split at h <;>
        · simp only [Option.some.injEq, Prod.mk.injEq] at h
          obtain ⟨rfl, rfl⟩ := h
          exact ⟨fun x hx => Or.inl hx, fun l' hl x hx => by cases hl; exact Or.inr hx⟩
  | cas k j i e =>
    simp only [Migrate.step] at h
    split at h
    · cases h
    · split at h
      · simp only [Option.some.injEq, Prod.mk.injEq] at h
        obtain ⟨rfl, rfl⟩ := h
        refine ⟨fun x hx => ?_, fun l' hl x hx => by cases hl; exact hx.elim⟩
        exact mem_set_elim hx
      · split at h
        · simp only [Option.some.injEq, Prod.mk.injEq] at h
          obtain ⟨rfl, rfl⟩ := h
          exact ⟨fun x hx => Or.inl hx, fun l' hl x hx => by cases hl; exact (hnext _ _ _ hx).elim⟩
        · simp only [Option.some.injEq, Prod.mk.injEq] at h
          obtain ⟨rfl, rfl⟩ := h
          exact ⟨fun x hx => Or.inl hx, fun l' hl x hx => by cases hl; exact Or.inr hx⟩
  | incr i e =>
    simp only [Migrate.step, Option.some.injEq, Prod.mk.injEq] at h
    obtain ⟨rfl, rfl⟩ := h
    exact ⟨fun x hx => Or.inl hx, fun l' hl x hx => by cases hl; exact (hnext _ _ _ hx).elim⟩
  | leave =>
    simp only [Migrate.step, Option.some.injEq, Prod.mk.injEq] at h
    obtain ⟨rfl, rfl⟩ := h
    exact ⟨fun x hx => Or.inl hx, fun l' hl x hx => by cases hl; exact hx.elim⟩
  | wait =>
    simp only [Migrate.step] at h
    split at h
    · simp only [Option.some.injEq, Prod.mk.injEq] at h
      obtain ⟨rfl, rfl⟩ := h
      exact ⟨fun x hx => Or.inl hx, fun l' hl x hx => by cases hl⟩
    · simp only [Option.some.injEq, Prod.mk.injEq] at h
      obtain ⟨rfl, rfl⟩ := h
      exact ⟨fun x hx => Or.inl hx, fun l' hl x hx => by cases hl; exact hx.elim⟩

/-- Summary of a step: where stored keys come from, which operation goes on, and when `contains`
may return true. -/
theorem step_sum {s s' : Shared} {l : Loc} {out : Loc ⊕ ConcSet.SetRet}
    (h : step s l = some (s', out)) :
    (∀ x, x ≠ 0 → Stored s' x → Stored s x ∨ (true, x) = locKey l ∨ moving l x) ∧
    (∀ l', out = .inl l' → locKey l' = locKey l ∧
      ∀ x, moving l' x → Stored s x ∨ moving l x) ∧
    (out = .inr (.bool true) → (locKey l).1 = false → Stored s (locKey l).2) := by
  have hafter : ∀ a h le c, locKey (afterGet a h le c) = contKey c := by
    intro a h le c
    cases c <;> simp only [afterGet] <;> first | rfl | (split <;> rfl)
  have hnm : ∀ a h le c x, ¬ moving (afterGet a h le c) x := by
    intro a h le c x
    cases c <;> simp only [afterGet] <;> first | exact id | (split <;> exact id)
  cases l with
  | ins0 hh k =>
    simp only [step] at h
    split at h
    · cases h
    · split at h <;>
      · simp only [Option.some.injEq, Prod.mk.injEq] at h
        obtain ⟨rfl, rfl⟩ := h
        exact ⟨fun x _ hx => Or.inl hx, fun l' hl => by cases hl; exact ⟨rfl, fun x hx => hx.elim⟩,
          fun h => by cases h⟩
  | con0 hh k =>
    simp only [step] at h
    split at h
    · cases h
    · split at h <;>
      · simp only [Option.some.injEq, Prod.mk.injEq] at h
        obtain ⟨rfl, rfl⟩ := h
        exact ⟨fun x _ hx => Or.inl hx, fun l' hl => by cases hl; exact ⟨rfl, fun x hx => hx.elim⟩,
          fun h => by cases h⟩
  | gt1 hh c =>
    simp only [step] at h
    split at h
    · cases h
    · simp only [Option.some.injEq, Prod.mk.injEq] at h
      obtain ⟨rfl, rfl⟩ := h
      exact ⟨fun x _ hx => Or.inl hx, fun l' hl => by cases hl; exact ⟨rfl, fun x hx => hx.elim⟩,
        fun h => by cases h⟩
  | gt2 hh c =>
    simp only [step] at h
    split at h
    · cases h
    · simp only [Option.some.injEq, Prod.mk.injEq] at h
      obtain ⟨rfl, rfl⟩ := h
      refine ⟨fun x _ hx => Or.inl hx, fun l' hl => ?_, fun h => ?_⟩
      · split at hl
        · cases hl; exact ⟨rfl, fun x hx => hx.elim⟩
        · cases hl; exact ⟨hafter _ _ _ _, fun x hx => (hnm _ _ _ _ _ hx).elim⟩
      · split at h <;> cases h
  | tab hh l =>
    simp only [step] at h
    split at h
    · cases h
    · rename_i le lt hhs
      split at h
      · cases h
      · rename_i tb htb
        split at h
        · cases h
        · rename_i t' out' hst
          simp only [Option.some.injEq, Prod.mk.injEq] at h
          obtain ⟨rfl, hout⟩ := h
          obtain ⟨h1, h2, h3, h4⟩ := setStep hst
          have htbm := List.mem_of_getElem? htb
          refine ⟨?_, ?_, ?_⟩
          · rintro x hx ⟨tb', htb', hxm⟩
            rcases mem_set_elim htb' with htb' | rfl
            · exact Or.inl ⟨tb', htb', hxm⟩
            · rcases h1 x hxm with h | h
              · exact Or.inl ⟨tb, htbm, h⟩
              · exact Or.inr (Or.inl h)
          · intro l' hl
            cases out' with
            | inl l2 =>
              simp only at hout
              rw [hl] at hout
              injection hout with hout
              rw [← hout]
              exact ⟨h2 l2 rfl, fun x hx => hx.elim⟩
            | inr r =>
              cases r with
              | bool b =>
                simp only at hout
                rw [hl] at hout
                cases hout
              | full =>
                rcases h3 _ rfl rfl with ⟨k, rfl⟩ | ⟨k, i, c, rfl⟩ <;>
                · simp only at hout
                  rw [hl] at hout
                  injection hout with hout
                  rw [← hout]
                  exact ⟨rfl, fun x hx => hx.elim⟩
          · intro hr hb
            cases out' with
            | inl l2 =>
              simp only at hout
              rw [hr] at hout
              cases hout
            | inr r =>
              cases r with
              | full =>
                rcases h3 _ rfl rfl with ⟨k, rfl⟩ | ⟨k, i, c, rfl⟩ <;>
                · simp only at hout
                  rw [hr] at hout
                  cases hout
              | bool b =>
                simp only at hout
                rw [hr] at hout
                injection hout with hout
                rw [← hout] at h4
                refine ⟨tb, htbm, h4 rfl ?_⟩
                have : (setKey l).1 = false := hb
                rw [← this]
  | g1 hh c =>
    simp only [step] at h
    split at h
    · cases h
    · split at h
      · cases h
      · rename_i tb htb
        split at h
        · simp only [Option.some.injEq, Prod.mk.injEq] at h
          obtain ⟨rfl, rfl⟩ := h
          refine ⟨?_, fun l' hl => by cases hl; exact ⟨rfl, fun x hx => hx.elim⟩, fun h => by cases h⟩
          rintro x hx ⟨tb', htb', hxm⟩
          rcases List.mem_append.1 htb' with htb' | htb'
          · exact Or.inl ⟨tb', htb', hxm⟩
          · simp only [List.mem_singleton] at htb'
            rw [htb'] at hxm
            exact absurd (List.mem_replicate.1 hxm).2 hx
        · simp only [Option.some.injEq, Prod.mk.injEq] at h
          obtain ⟨rfl, rfl⟩ := h
          exact ⟨fun x _ hx => Or.inl hx, fun l' hl => by cases hl; exact ⟨rfl, fun x hx => hx.elim⟩,
            fun h => by cases h⟩
  | g2 hh w c =>
    simp only [step] at h
    split at h
    · cases h
    · simp only [Option.some.injEq, Prod.mk.injEq] at h
      obtain ⟨rfl, rfl⟩ := h
      exact ⟨fun x _ hx => Or.inl hx, fun l' hl => by cases hl; exact ⟨rfl, fun x hx => hx.elim⟩,
        fun h => by cases h⟩
  | mig hh w m c =>
    simp only [step] at h
    split at h
    · cases h
    · split at h
      · rename_i old nw hold hnw
        split at h
        · cases h
        · rename_i s2 out' hst
          simp only [Option.some.injEq, Prod.mk.injEq] at h
          obtain ⟨rfl, hout⟩ := h
          obtain ⟨h1, h2⟩ := migStep hst hh w w c
          have hom := List.mem_of_getElem? hold
          have hnm' := List.mem_of_getElem? hnw
          refine ⟨?_, ?_, ?_⟩
          · rintro x hx ⟨tb', htb', hxm⟩
            rcases mem_set_elim htb' with htb' | rfl
            · rcases mem_set_elim htb' with htb' | rfl
              · exact Or.inl ⟨tb', htb', hxm⟩
              · rcases h1 x hxm with h | h
                · exact Or.inl ⟨nw, hnm', h⟩
                · exact Or.inr (Or.inr h)
            · exact Or.inl ⟨old, hom, hxm⟩
          · intro l' hl
            cases out' with
            | inl l2 =>
              simp only at hout
              rw [hl] at hout
              injection hout with hout
              rw [← hout]
              refine ⟨rfl, fun x hx => ?_⟩
              rcases h2 l2 rfl x hx with h | h
              · exact Or.inl ⟨old, hom, h⟩
              · exact Or.inr h
            | inr r =>
              simp only at hout
              rw [hl] at hout
              injection hout with hout
              rw [← hout]
              exact ⟨rfl, fun x hx => hx.elim⟩
          · intro hr
            cases out' <;> simp only at hout <;> rw [hr] at hout <;> cases hout
      · cases h
  | g8 hh w c =>
    simp only [step, Option.some.injEq, Prod.mk.injEq] at h
    obtain ⟨rfl, rfl⟩ := h
    exact ⟨fun x _ hx => Or.inl hx, fun l' hl => by cases hl; exact ⟨rfl, fun x hx => hx.elim⟩,
      fun h => by cases h⟩
  | g9 hh w c =>
    simp only [step] at h
    split at h
    · cases h
    · simp only [Option.some.injEq, Prod.mk.injEq] at h
      obtain ⟨rfl, rfl⟩ := h
      exact ⟨fun x _ hx => Or.inl hx, fun l' hl => by cases hl; exact ⟨rfl, fun x hx => hx.elim⟩,
        fun h => by cases h⟩

variable {n : Nat}

/-- `insert` of `k` has been called. -/
def Called (h : List (Ev n Op ConcSet.SetRet)) (k : Nat) : Prop := ∃ t i, Ev.inv t (.insert i k) ∈ h

structure GInv (c : Config n Shared Loc Op ConcSet.SetRet) : Prop where
  key : ∀ t A, c.th t = some A → locKey A.loc = opKey A.op
  ops : ∀ t A, c.th t = some A → Ev.inv t A.op ∈ c.hist
  mov : ∀ t A x, c.th t = some A → moving A.loc x → x ≠ 0 → Called c.hist x
  sto : ∀ x, x ≠ 0 → Stored c.sh x → Called c.hist x
  ret : ∀ t i k h1 h2, c.hist = h1 ++ Ev.res t (.contains i k) (.bool true) :: h2 → k ≠ 0 →
    Called h1 k

theorem step_inv {ok : Op → Prop} {c c' : Config n Shared Loc Op ConcSet.SetRet}
    (h : GInv c) (hs : Step obj ok c c') : GInv c' := by
  have mono : ∀ (e : List (Ev n Op ConcSet.SetRet)) {x : Ev n Op ConcSet.SetRet},
      x ∈ c.hist → x ∈ c.hist ++ e := fun e x hx => List.mem_append.2 (Or.inl hx)
  have monoC : ∀ (e : List (Ev n Op ConcSet.SetRet)) {x : Nat}, Called c.hist x →
      Called (c.hist ++ e) x := fun e x ⟨t, i, hx⟩ => ⟨t, i, mono e hx⟩
  have hcalled : ∀ t A x, c.th t = some A → (true, x) = locKey A.loc → Called c.hist x := by
    intro t A x hA hx
    rw [h.key t A hA] at hx
    have := h.ops t A hA
    cases hop : A.op with
    | insert i k =>
      rw [hop] at hx this
      simp only [opKey, Prod.mk.injEq, true_and] at hx
      subst hx
      exact ⟨t, i, this⟩
    | contains i k => rw [hop] at hx; simp [opKey] at hx
  cases hs with
  | call t op hidle hok =>
    refine ⟨?_, ?_, ?_, fun x hx0 hx => monoC _ (h.sto x hx0 hx), ?_⟩
    · intro u A hu
      replace hu := upd_cases hu
      rcases hu with ⟨rfl, hu⟩ | ⟨hut, hu⟩
      · injection hu with hu
        subst hu
        cases op <;> rfl
      · exact h.key u A hu
    · intro u A hu
      replace hu := upd_cases hu
      rcases hu with ⟨rfl, hu⟩ | ⟨hut, hu⟩
      · injection hu with hu
        subst hu
        simp
      · exact mono _ (h.ops u A hu)
    · intro u A x hu hx hx0
      replace hu := upd_cases hu
      rcases hu with ⟨rfl, hu⟩ | ⟨hut, hu⟩
      · injection hu with hu
        subst hu
        cases op <;> exact hx.elim
      · exact monoC _ (h.mov u A x hu hx hx0)
    · intro u i k h1 h2 hu hk
      rcases append_singleton_split hu with ⟨_, he⟩ | ⟨h2', he⟩
      · cases he
      · exact h.ret u i k h1 h2' he hk
  | internal t A s' l' hth hst =>
    obtain ⟨h1, h2, h3⟩ := step_sum hst
    obtain ⟨hk, hm⟩ := h2 l' rfl
    refine ⟨?_, ?_, ?_, ?_, h.ret⟩
    · intro u B hu
      replace hu := upd_cases hu
      rcases hu with ⟨rfl, hu⟩ | ⟨hut, hu⟩
      · injection hu with hu
        subst hu
        exact hk.trans (h.key u A hth)
      · exact h.key u B hu
    · intro u B hu
      replace hu := upd_cases hu
      rcases hu with ⟨rfl, hu⟩ | ⟨hut, hu⟩
      · injection hu with hu
        subst hu
        exact h.ops u A hth
      · exact h.ops u B hu
    · intro u B x hu hx hx0
      replace hu := upd_cases hu
      rcases hu with ⟨rfl, hu⟩ | ⟨hut, hu⟩
      · injection hu with hu
        subst hu
        rcases hm x hx with h4 | h4
        · exact h.sto x hx0 h4
        · exact h.mov u A x hth h4 hx0
      · exact h.mov u B x hu hx hx0
    · intro x hx0 hx
      rcases h1 x hx0 hx with h4 | h4 | h4
      · exact h.sto x hx0 h4
      · exact hcalled t A x hth h4
      · exact h.mov t A x hth h4 hx0
  | ret t A s' r hth hst =>
    obtain ⟨h1, h2, h3⟩ := step_sum hst
    refine ⟨?_, ?_, ?_, ?_, ?_⟩
    · intro u B hu
      replace hu := upd_cases hu
      rcases hu with ⟨rfl, hu⟩ | ⟨hut, hu⟩
      · cases hu
      · exact h.key u B hu
    · intro u B hu
      replace hu := upd_cases hu
      rcases hu with ⟨rfl, hu⟩ | ⟨hut, hu⟩
      · cases hu
      · exact mono _ (h.ops u B hu)
    · intro u B x hu hx hx0
      replace hu := upd_cases hu
      rcases hu with ⟨rfl, hu⟩ | ⟨hut, hu⟩
      · cases hu
      · exact monoC _ (h.mov u B x hu hx hx0)
    · intro x hx0 hx
      refine monoC _ ?_
      rcases h1 x hx0 hx with h4 | h4 | h4
      · exact h.sto x hx0 h4
      · exact hcalled t A x hth h4
      · exact h.mov t A x hth h4 hx0
    · intro u i k e1 e2 hu hk
      rcases append_singleton_split hu with ⟨hh, he⟩ | ⟨h2', he⟩
      · simp only [Ev.res.injEq] at he
        obtain ⟨_, hop, hr⟩ := he
        rw [hh]
        have hkey := h.key t A hth
        rw [← hop] at hkey
        rw [hkey] at h3
        exact h.sto k hk (h3 (by rw [hr]) rfl)
      · exact h.ret u i k e1 h2' he hk

theorem reach_inv {ok : Op → Prop} {a size m : Nat} {c : Config n Shared Loc Op ConcSet.SetRet}
    (h : Reach obj ok (new a size m) c) : GInv c := by
  refine h.induct ⟨by simp [Config.init], by simp [Config.init], by simp [Config.init], ?_, by simp [Config.init]⟩
    (fun _ _ _ hi hs => step_inv hi hs)
  rintro x hx ⟨tb, htb, hxm⟩
  simp only [Config.init, new, List.mem_singleton] at htb
  rw [htb] at hxm
  exact absurd (List.mem_replicate.1 hxm).2 hx

end Growing
end Verif
