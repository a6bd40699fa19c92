import Verif.Lemmas.GrowingMap
import Mathlib.Algebra.Order.BigOperators.Group.Finset

/-!
# When the growing map has to grow

As long as there is one table, the number of its items is bounded: every insertion that claims a slot
has seen fewer items than half the number of slots, and at most `n` insertions run at a time.
-/
namespace Verif
namespace GrowingMap
open Conc
open ConcMap (MapOp MapRet)

variable {n : Nat}

theorem cnt_update_gen {α : Type} {p : α → Bool} {f : Fin n → α} {t : Fin n} (x : α) :
    Conc.cnt p (Function.update f t x) + (p (f t)).toNat = Conc.cnt p f + (p x).toNat := by
  cases h1 : p (f t) <;> cases h2 : p x
  · rw [cnt_update_same (by rw [h1, h2])]
  · rw [cnt_update_add h1 h2]
    rfl
  · have := cnt_update_sub (p := p) (f := f) (t := t) (x := x) h1 h2
    simp only [Bool.toNat_true, Bool.toNat_false]
    omega
  · rw [cnt_update_same (by rw [h1, h2])]

/-- The insertion has claimed a slot and not counted it yet. -/
def pend : ConcMap.Loc → Bool
  | .store _ _ _ true => true
  | .incr _ _ => true
  | _ => false

/-- The insertion has passed the test of the number of items and may still count an item. -/
def past : ConcMap.Loc → Bool
  | .probe _ _ _ => true
  | .cas _ _ _ => true
  | .store _ _ _ true => true
  | .incr _ _ => true
  | _ => false

/-- The local variables of an insertion of `k`. -/
def LocIn (k : Nat) (keys : List Nat) : ConcMap.Loc → Prop
  | .check k' _ => k' = k
  | .probe k' _ _ => k' = k
  | .cas k' _ _ => k' = k
  | .store k' _ _ _ => k' = k ∧ k ∈ keys
  | .incr k' _ => k' = k ∧ k ∈ keys
  | .look _ _ => False
  | .lookV _ _ => False

theorem LocIn.mono {k : Nat} {keys keys' : List Nat} {l : ConcMap.Loc} (hk : k ≠ 0)
    (hm : ∀ k, k ≠ 0 → k ∈ keys → k ∈ keys') (h : LocIn k keys l) : LocIn k keys' l := by
  cases l with
  | store k' v i w => exact ⟨h.1, hm k hk h.2⟩
  | incr k' v => exact ⟨h.1, hm k hk h.2⟩
  | _ => exact h

/-- The result of a step of an insertion of `k`. -/
def OutOk (k : Nat) (keys : List Nat) : ConcMap.Loc ⊕ MapRet → Prop
  | .inl l => LocIn k keys l
  | .inr .full => True
  | .inr (.bool _) => k ∈ keys
  | .inr (.val _) => False

/-- Apply a test to the place where the insertion continues. -/
def outB (p : ConcMap.Loc → Bool) : ConcMap.Loc ⊕ MapRet → Bool
  | .inl l => p l
  | .inr _ => false

theorem table_step {k : Nat} {s s' : ConcMap.Shared} {l : ConcMap.Loc} {out : ConcMap.Loc ⊕ MapRet}
    (hk : k ≠ 0) (hl : LocIn k s.keys l) (h : ConcMap.step s l = some (s', out)) :
    s'.keys.length = s.keys.length ∧ OutOk k s'.keys out ∧
    (∀ k, k ≠ 0 → k ∈ s.keys → k ∈ s'.keys) ∧
    occ s'.keys + s.items + (pend l).toNat = occ s.keys + s'.items + (outB pend out).toNat ∧
    (s'.items + (outB past out).toNat ≤ s.items + (past l).toNat ∨
      (s'.items = s.items ∧ s.items < s.keys.length / 2 ∧ past l = false)) := by
  cases l with
  | look => exact hl.elim
  | lookV => exact hl.elim
  | check k' v =>
    simp only [ConcMap.step] at h
    split at h
    · simp only [Option.some.injEq, Prod.mk.injEq] at h
      obtain ⟨rfl, rfl⟩ := h
      exact ⟨rfl, trivial, fun _ _ h => h, rfl, Or.inl (Nat.le_refl _)⟩
    · simp only [Option.some.injEq, Prod.mk.injEq] at h
      obtain ⟨rfl, rfl⟩ := h
      exact ⟨rfl, hl, fun _ _ h => h, rfl, Or.inr ⟨rfl, by omega, rfl⟩⟩
  | probe k' v idx =>
    simp only [ConcMap.step] at h
    split at h
    · cases h
    · rename_i probed hp
      split at h
      · rename_i hpk
        simp only [Option.some.injEq, Prod.mk.injEq] at h
        obtain ⟨rfl, rfl⟩ := h
        refine ⟨rfl, ⟨hl, ?_⟩, fun _ _ h => h, rfl, Or.inl (Nat.le_add_right _ _)⟩
        rw [← hl, ← hpk]
        exact List.mem_of_getElem? hp
      · split at h <;>
        · simp only [Option.some.injEq, Prod.mk.injEq] at h
          obtain ⟨rfl, rfl⟩ := h
          exact ⟨rfl, hl, fun _ _ h => h, rfl, Or.inl (Nat.le_refl _)⟩
  | cas k' v i =>
    have hl' : k' = k := hl
    subst hl'
    simp only [ConcMap.step] at h
    split at h
    · cases h
    · rename_i prev hp
      have hlt := (List.getElem?_eq_some_iff.1 hp).1
      split at h
      · rename_i hp0
        subst hp0
        simp only [Option.some.injEq, Prod.mk.injEq] at h
        obtain ⟨rfl, rfl⟩ := h
        refine ⟨by simp, ⟨rfl, ?_⟩, fun x hx hm => ?_, ?_, Or.inl (Nat.le_refl _)⟩
        · exact List.mem_of_getElem? (List.getElem?_set_self hlt)
        · obtain ⟨j, hj⟩ := List.mem_iff_getElem?.1 hm
          have hne : i ≠ j := by
            rintro rfl
            rw [hp] at hj
            injection hj with hj
            exact hx hj.symm
          exact List.mem_of_getElem? (i := j) (by simp only [List.getElem?_set_ne hne]; exact hj)
        · simp only
          rw [occ_set hlt hp hk]
          simp only [outB, pend, Bool.toNat_true, Bool.toNat_false]
          omega
      · split at h
        · rename_i hpk
          simp only [Option.some.injEq, Prod.mk.injEq] at h
          obtain ⟨rfl, rfl⟩ := h
          refine ⟨rfl, ⟨rfl, ?_⟩, fun _ _ h => h, rfl, Or.inl (Nat.le_add_right _ _)⟩
          rw [← hpk]
          exact List.mem_of_getElem? hp
        · simp only [Option.some.injEq, Prod.mk.injEq] at h
          obtain ⟨rfl, rfl⟩ := h
          exact ⟨rfl, rfl, fun _ _ h => h, rfl, Or.inl (Nat.le_refl _)⟩
  | store k' v i won =>
    simp only [ConcMap.step] at h
    split at h
    · simp only [Option.some.injEq, Prod.mk.injEq] at h
      obtain ⟨rfl, rfl⟩ := h
      cases won
      · exact ⟨rfl, hl.2, fun _ _ h => h, rfl, Or.inl (Nat.le_refl _)⟩
      · exact ⟨rfl, hl, fun _ _ h => h, rfl, Or.inl (Nat.le_refl _)⟩
    · cases h
  | incr k' v =>
    simp only [ConcMap.step, Option.some.injEq, Prod.mk.injEq] at h
    obtain ⟨rfl, rfl⟩ := h
    refine ⟨rfl, hl.2, fun _ _ h => h, ?_, Or.inl ?_⟩
    · simp only [outB, pend, Bool.toNat_true, Bool.toNat_false]
      omega
    · simp only [outB, past, Bool.toNat_true, Bool.toNat_false]
      omega

/-- A thread inside of a table for which the test holds. -/
def inTab (p : ConcMap.Loc → Bool) : Option (Active Loc Op) → Bool
  | some ⟨_, .tab _ l, _⟩ => p l
  | _ => false

/-- Where a thread can be as long as there is one table. -/
def LocG (m : Nat) (keys : List Nat) (A : Active Loc Op) : Prop :=
  A.op.h < m ∧ A.op.k ≠ 0 ∧
  match A.loc with
  | .ins0 o => o = A.op
  | .tab o l => o = A.op ∧ LocIn o.k keys l
  | .g1 o _ => o = A.op
  | _ => False

/-- As long as there is one table. -/
structure One (p m : Nat) (c : Config n Shared Loc Op MapRet) (tb : Tab) : Prop where
  tabs : c.sh.tabs = [tb]
  ew : c.sh.ew = 0
  hs : c.sh.hs = List.replicate m (0, 0)
  len : tb.t.keys.length = 2 ^ p
  loc : ∀ t A, c.th t = some A → LocG m tb.t.keys A
  cnt : occ tb.t.keys = tb.t.items + Conc.cnt (inTab pend) c.th
  bound : tb.t.items + Conc.cnt (inTab past) c.th ≤ 2 ^ p / 2 - 1 + n
  res : ∀ t o r, Ev.res t o r ∈ c.hist → o.k ≠ 0 ∧ o.k ∈ tb.t.keys

theorem LocG.mono {m : Nat} {keys keys' : List Nat} {A : Active Loc Op}
    (hm : ∀ k, k ≠ 0 → k ∈ keys → k ∈ keys') (h : LocG m keys A) : LocG m keys' A := by
  obtain ⟨op, l, st⟩ := A
  refine ⟨h.1, h.2.1, ?_⟩
  have h2 := h.2.2
  cases l with
  | tab o l =>
    refine ⟨h2.1, LocIn.mono ?_ hm h2.2⟩
    rw [h2.1]
    exact h.2.1
  | _ => exact h2

theorem one_init (junk : Nat → Nat) (a size p m : Nat) (hp : nextPow2 size = 2 ^ p) :
    One (n := n) p m (Config.init n (new junk a size m)) ⟨ConcMap.new a size, 0⟩ where
  tabs := rfl
  ew := rfl
  hs := rfl
  len := by simp [ConcMap.new, hp]
  loc := by simp [Config.init]
  cnt := by
    simp only [Config.init, ConcMap.new]
    rw [occ_replicate, cnt_eq_zero (fun t => rfl)]
  bound := by
    simp only [Config.init, ConcMap.new]
    rw [cnt_eq_zero (fun t => rfl)]
    omega
  res := by simp [Config.init]

theorem cnt_le {α : Type} (p : α → Bool) (f : Fin n → α) : Conc.cnt p f ≤ n := by
  unfold Conc.cnt
  refine (Finset.sum_le_sum (g := fun _ => 1) (fun i _ => ?_)).trans (by simp)
  split <;> omega

/-- A step in the table. -/
theorem one_tab {p m : Nat} {c : Config n Shared Loc Op MapRet} {tb : Tab} (h : One p m c tb)
    {t : Fin n} {o : Op} {lb : ConcMap.Loc} {st : Nat} (hth : c.th t = some ⟨o, .tab o lb, st⟩)
    {t' : ConcMap.Shared} {out : ConcMap.Loc ⊕ MapRet} (hm : ConcMap.step tb.t lb = some (t', out))
    (x : Option (Active Loc Op)) (hx1 : inTab pend x = outB pend out)
    (hx2 : inTab past x = outB past out) (hx3 : ∀ A, x = some A → LocG m t'.keys A)
    (e : List (Ev n Op MapRet)) (he : ∀ u o' r, Ev.res u o' r ∈ e → o'.k ≠ 0 ∧ o'.k ∈ t'.keys) :
    One p m ({ c with
      sh := { c.sh with tabs := [tb].set 0 { tb with t := t' } },
      th := Function.update c.th t x, hist := c.hist ++ e } : Config n Shared Loc Op MapRet)
      ⟨t', tb.copy⟩ := by
  obtain ⟨hh, hk, hl⟩ := h.loc t _ hth
  simp only at hh hk hl
  obtain ⟨h1, h2, h3, h4, h5⟩ := table_step hk hl.2 hm
  have hlen := h.len
  have hcn := h.cnt
  have hbd := h.bound
  have e1 := cnt_update_gen (p := inTab pend) (f := c.th) (t := t) x
  have e2 := cnt_update_gen (p := inTab past) (f := c.th) (t := t) x
  have e3 := cnt_le (inTab past) (Function.update c.th t x)
  rw [hx1, hth] at e1
  rw [hx2, hth] at e2
  simp only [inTab] at e1 e2
  refine ⟨rfl, h.ew, h.hs, by simp only; omega, fun u A hu => ?_, ?_, ?_, fun u o r hr => ?_⟩
  · rcases ConcMap.upd_cases hu with ⟨_, hy⟩ | ⟨_, hy⟩
    · exact hx3 A hy
    · exact (h.loc u A hy).mono h3
  · simp only
    omega
  · simp only
    rcases h5 with h5 | ⟨h5, h6, h7⟩
    · omega
    · rw [hlen] at h6
      omega
  · rcases List.mem_append.1 hr with hr | hr
    · obtain ⟨h6, h7⟩ := h.res u o r hr
      exact ⟨h6, h3 _ h6 h7⟩
    · exact he u o r hr

theorem one_step {p m : Nat} {c c' : Config n Shared Loc Op MapRet} {tb : Tab} (h : One p m c tb)
    (hs : Step obj (fun o => o.k ≠ 0 ∧ o.h < m) c c') :
    2 ≤ c'.sh.tabs.length ∨ ∃ tb', One p m c' tb' := by
  cases hs with
  | call t op hidle hok =>
    refine Or.inr ⟨tb, h.tabs, h.ew, h.hs, h.len, fun u A hu => ?_, ?_, ?_,
      fun u o r hr => h.res u o r (by simpa using hr)⟩
    · rcases ConcMap.upd_cases hu with ⟨_, hx⟩ | ⟨_, hx⟩
      · injection hx with hx
        subst hx
        exact ⟨hok.2, hok.1, rfl⟩
      · exact h.loc u A hx
    · simp only
      rw [cnt_update_same (by rw [hidle]; rfl)]
      exact h.cnt
    · simp only
      rw [cnt_update_same (by rw [hidle]; rfl)]
      exact h.bound
  | internal t A s' l' hth hst =>
    obtain ⟨o, l, st⟩ := A
    replace hst : step c.sh l = some (s', .inl l') := hst
    obtain ⟨hh, hk, hl⟩ := h.loc t _ hth
    simp only at hh hk hl
    have hg : c.sh.hs[o.h]? = some (0, 0) := by rw [h.hs]; exact hs_get hh
    cases l with
    | ins0 o' =>
      simp only at hl
      subst hl
      simp only [step, hg, h.ew] at hst
      rw [if_neg (by omega)] at hst
      simp only [Option.some.injEq, Prod.mk.injEq, Sum.inl.injEq] at hst
      obtain ⟨rfl, rfl⟩ := hst
      refine Or.inr ⟨tb, h.tabs, h.ew, h.hs, h.len, fun u A hu => ?_, ?_, ?_, h.res⟩
      · rcases ConcMap.upd_cases hu with ⟨_, hx⟩ | ⟨_, hx⟩
        · injection hx with hx
          subst hx
          exact ⟨hh, hk, rfl, rfl⟩
        · exact h.loc u A hx
      · simp only
        rw [cnt_update_same (by rw [hth]; rfl)]
        exact h.cnt
      · simp only
        rw [cnt_update_same (by rw [hth]; rfl)]
        exact h.bound
    | tab o' lb =>
      simp only at hl
      obtain ⟨rfl, hl⟩ := hl
      simp only [step, hg, h.tabs, List.getElem?_cons_zero] at hst
      cases hm : ConcMap.step tb.t lb with
      | none => rw [hm] at hst; cases hst
      | some r =>
        obtain ⟨t', out⟩ := r
        rw [hm] at hst
        obtain ⟨h1, h2, h3, h4, h5⟩ := table_step hk hl hm
        simp only [Option.some.injEq, Prod.mk.injEq] at hst
        obtain ⟨rfl, hout⟩ := hst
        have key := fun x hx1 hx2 hx3 => one_tab h hth hm x hx1 hx2 hx3 [] (by simp)
        rw [List.append_nil] at key
        cases out with
        | inl l1 =>
          simp only at hout
          injection hout with hout
          subst hout
          exact Or.inr ⟨_, key _ rfl rfl (fun A hA => by
            injection hA with hA
            subst hA
            exact ⟨hh, hk, rfl, h2⟩)⟩
        | inr r =>
          cases r with
          | bool b => simp at hout
          | val v => exact h2.elim
          | full =>
            simp only at hout
            injection hout with hout
            subst hout
            exact Or.inr ⟨_, key _ rfl rfl (fun A hA => by
              injection hA with hA
              subst hA
              exact ⟨hh, hk, rfl⟩)⟩
    | g1 o' k =>
      left
      simp only at hl
      subst hl
      simp only [step, hg, h.tabs, List.getElem?_cons_zero, List.length_singleton] at hst
      rw [if_pos trivial] at hst
      simp only [Option.some.injEq, Prod.mk.injEq, Sum.inl.injEq] at hst
      obtain ⟨rfl, rfl⟩ := hst
      simp
    | _ => exact hl.elim
  | ret t A s' r hth hst =>
    obtain ⟨o, l, st⟩ := A
    replace hst : step c.sh l = some (s', .inr r) := hst
    obtain ⟨hh, hk, hl⟩ := h.loc t _ hth
    simp only at hh hk hl
    have hg : c.sh.hs[o.h]? = some (0, 0) := by rw [h.hs]; exact hs_get hh
    cases l with
    | tab o' lb =>
      simp only at hl
      obtain ⟨rfl, hl⟩ := hl
      simp only [step, hg, h.tabs, List.getElem?_cons_zero] at hst
      cases hm : ConcMap.step tb.t lb with
      | none => rw [hm] at hst; cases hst
      | some r' =>
        obtain ⟨t', out⟩ := r'
        rw [hm] at hst
        obtain ⟨h1, h2, h3, h4, h5⟩ := table_step hk hl hm
        simp only [Option.some.injEq, Prod.mk.injEq] at hst
        obtain ⟨rfl, hout⟩ := hst
        right
        cases out with
        | inl l1 => simp at hout
        | inr r1 =>
          cases r1 with
          | val v => exact h2.elim
          | full => simp at hout
          | bool b =>
            exact ⟨_, one_tab h hth hm none rfl rfl (fun A hA => by cases hA) [.res t o' r]
              (fun u o'' r' hu => by
                simp only [List.mem_singleton, Ev.res.injEq] at hu
                rw [hu.2.1]
                exact ⟨hk, h2⟩)⟩
    | ins0 o' =>
      simp only at hl
      subst hl
      simp only [step, hg, h.ew] at hst
      rw [if_neg (by omega)] at hst
      simp at hst
    | g1 o' k =>
      simp only at hl
      subst hl
      simp only [step, hg, h.tabs, List.getElem?_cons_zero, List.length_singleton] at hst
      rw [if_pos trivial] at hst
      simp at hst
    | _ => exact hl.elim

theorem tabs_mono {ok : Op → Prop} {c c' : Config n Shared Loc Op MapRet} (hs : Step obj ok c c') :
    c.sh.tabs.length ≤ c'.sh.tabs.length := by
  have key : ∀ (s s' : Shared) (l : Loc) (out : Loc ⊕ MapRet), step s l = some (s', out) →
      s.tabs.length ≤ s'.tabs.length := by
    intro s s' l out h
    cases l <;>
    · simp only [step] at h
      repeat' split at h
      all_goals first
        | (cases h; done)
        | (simp only [Option.some.injEq, Prod.mk.injEq] at h
           obtain ⟨rfl, _⟩ := h
           simp)
  cases hs with
  | call => exact Nat.le_refl _
  | internal t A s' l' hth hst => exact key _ _ _ _ hst
  | ret t A s' r hth hst => exact key _ _ _ _ hst

theorem one_or_more {junk : Nat → Nat} {a size p m : Nat} (hp : nextPow2 size = 2 ^ p)
    {c : Config n Shared Loc Op MapRet}
    (h : Reach obj (fun o => o.k ≠ 0 ∧ o.h < m) (new junk a size m) c) :
    2 ≤ c.sh.tabs.length ∨ ∃ tb, One p m c tb := by
  refine Reach.induct (P := fun c => 2 ≤ c.sh.tabs.length ∨ ∃ tb, One p m c tb)
    (Or.inr ⟨_, one_init junk a size p m hp⟩) ?_ h
  rintro c c' _ (ih | ⟨tb, ih⟩) hs
  · exact Or.inl (ih.trans (tabs_mono hs))
  · exact one_step ih hs

end GrowingMap
end Verif
