import Verif.Lemmas.MustGrow
import Verif.Lemmas.GrowingSerial

/-!
# When the growing set has to grow

As long as there is one table, the number of its items is bounded: every insertion that claims a slot
has seen fewer items than half the number of slots, and at most `n` insertions run at a time.
-/
namespace Verif
namespace Growing
open Conc
open ConcSet (SetRet)
open GrowingMap (cnt_update_gen cnt_le)

variable {n : Nat}

/-- The insertion has claimed a slot and not counted it yet. -/
def pend : ConcSet.Loc → Bool
  | .incr _ => true
  | _ => false

/-- The insertion has passed the test of the number of items and may still count an item. -/
def past : ConcSet.Loc → Bool
  | .probe _ _ _ => true
  | .cas _ _ _ => true
  | .incr _ => true
  | _ => false

/-- The local variables of an insertion of `k`. -/
def LocIn (k : Nat) (arr : List Nat) : ConcSet.Loc → Prop
  | .check k' => k' = k
  | .probe k' _ _ => k' = k
  | .cas k' _ _ => k' = k
  | .incr k' => k' = k ∧ k ∈ arr
  | .look _ _ => False

theorem LocIn.mono {k : Nat} {arr arr' : List Nat} {l : ConcSet.Loc} (hk : k ≠ 0)
    (hm : ∀ k, k ≠ 0 → k ∈ arr → k ∈ arr') (h : LocIn k arr l) : LocIn k arr' l := by
  cases l with
  | incr k' => exact ⟨h.1, hm k hk h.2⟩
  | _ => exact h

/-- The result of a step of an insertion of `k`. -/
def OutOk (k : Nat) (arr : List Nat) : ConcSet.Loc ⊕ SetRet → Prop
  | .inl l => LocIn k arr l
  | .inr .full => True
  | .inr (.bool _) => k ∈ arr

/-- Apply a test to the place where the insertion continues. -/
def outB (p : ConcSet.Loc → Bool) : ConcSet.Loc ⊕ SetRet → Bool
  | .inl l => p l
  | .inr _ => false

theorem table_step {k : Nat} {s s' : ConcSet.Shared} {l : ConcSet.Loc} {out : ConcSet.Loc ⊕ SetRet}
    (hk : k ≠ 0) (hl : LocIn k s.arr l) (h : ConcSet.step true s l = some (s', out)) :
    s'.arr.length = s.arr.length ∧ OutOk k s'.arr out ∧
    (∀ k, k ≠ 0 → k ∈ s.arr → k ∈ s'.arr) ∧
    occ s'.arr + s.items + (pend l).toNat = occ s.arr + s'.items + (outB pend out).toNat ∧
    (s'.items + (outB past out).toNat ≤ s.items + (past l).toNat ∨
      (s'.items = s.items ∧ s.items < s.arr.length / 2 ∧ past l = false)) := by
  cases l with
  | look => exact hl.elim
  | check k' =>
    simp only [ConcSet.step] at h
    split at h
    · simp only [Option.some.injEq, Prod.mk.injEq] at h
      obtain ⟨rfl, rfl⟩ := h
      exact ⟨rfl, trivial, fun _ _ h => h, rfl, Or.inl (Nat.le_refl _)⟩
    · rename_i hc
      split at h
      · rename_i hc
        cases hc.1
      · simp only [Option.some.injEq, Prod.mk.injEq] at h
        obtain ⟨rfl, rfl⟩ := h
        exact ⟨rfl, hl, fun _ _ h => h, rfl, Or.inr ⟨rfl, by simp at hc; omega, rfl⟩⟩
  | probe k' idx cols =>
    have hl' : k' = k := hl
    subst hl'
    simp only [ConcSet.step] at h
    split at h
    · simp only [Option.some.injEq, Prod.mk.injEq] at h
      obtain ⟨rfl, rfl⟩ := h
      exact ⟨rfl, trivial, fun _ _ h => h, rfl, Or.inl (Nat.le_add_right _ _)⟩
    · split at h
      · cases h
      · rename_i probed hp
        split at h
        · rename_i hpk
          simp only [Option.some.injEq, Prod.mk.injEq] at h
          obtain ⟨rfl, rfl⟩ := h
          refine ⟨rfl, ?_, fun _ _ h => h, rfl, Or.inl (Nat.le_add_right _ _)⟩
          rw [← hpk]
          exact List.mem_of_getElem? hp
        · split at h <;>
          · simp only [Option.some.injEq, Prod.mk.injEq] at h
            obtain ⟨rfl, rfl⟩ := h
            exact ⟨rfl, rfl, fun _ _ h => h, rfl, Or.inl (Nat.le_refl _)⟩
  | cas k' i cols =>
    have hl' : k' = k := hl
    subst hl'
    simp only [ConcSet.step] at h
    split at h
    · cases h
    · rename_i prev hp
      have hlt := (List.getElem?_eq_some_iff.1 hp).1
      split at h
      · rename_i hp0
        subst hp0
        simp only [Option.some.injEq, Prod.mk.injEq] at h
        obtain ⟨rfl, rfl⟩ := h
        refine ⟨by simp, ⟨rfl, ?_⟩, fun x hx hm => ?_, ?_, Or.inl (Nat.le_refl _)⟩
        · exact List.mem_of_getElem? (List.getElem?_set_self hlt)
        · obtain ⟨j, hj⟩ := List.mem_iff_getElem?.1 hm
          have hne : i ≠ j := by
            rintro rfl
            rw [hp] at hj
            injection hj with hj
            exact hx hj.symm
          exact List.mem_of_getElem? (i := j) (by simp only [List.getElem?_set_ne hne]; exact hj)
        · simp only
          rw [occ_set hlt hp hk]
          simp only [outB, pend, Bool.toNat_true, Bool.toNat_false]
          omega
      · split at h
        · rename_i hpk
          simp only [Option.some.injEq, Prod.mk.injEq] at h
          obtain ⟨rfl, rfl⟩ := h
          refine ⟨rfl, ?_, fun _ _ h => h, rfl, Or.inl (Nat.le_add_right _ _)⟩
          rw [← hpk]
          exact List.mem_of_getElem? hp
        · simp only [Option.some.injEq, Prod.mk.injEq] at h
          obtain ⟨rfl, rfl⟩ := h
          exact ⟨rfl, rfl, fun _ _ h => h, rfl, Or.inl (Nat.le_refl _)⟩
  | incr k' =>
    simp only [ConcSet.step, Option.some.injEq, Prod.mk.injEq] at h
    obtain ⟨rfl, rfl⟩ := h
    refine ⟨rfl, hl.2, fun _ _ h => h, ?_, Or.inl ?_⟩
    · simp only [outB, pend, Bool.toNat_true, Bool.toNat_false]
      omega
    · simp only [outB, past, Bool.toNat_true, Bool.toNat_false]
      omega

/-- A thread inside of a table for which the test holds. -/
def inTab (p : ConcSet.Loc → Bool) : Option (Active Loc Op) → Bool
  | some ⟨_, .tab _ l, _⟩ => p l
  | _ => false

/-- Where a thread can be as long as there is one table. -/
def LocG (m : Nat) (arr : List Nat) (A : Active Loc Op) : Prop :=
  ∃ h k, A.op = .insert h k ∧ h < m ∧ k ≠ 0 ∧
  match A.loc with
  | .ins0 h' k' => h' = h ∧ k' = k
  | .tab h' l => h' = h ∧ LocIn k arr l
  | .g1 h' _ => h' = h
  | _ => False

/-- As long as there is one table. -/
structure One (p m : Nat) (c : Config n Shared Loc Op SetRet) (tb : Tab) : Prop where
  tabs : c.sh.tabs = [tb]
  ew : c.sh.ew = 0
  hs : c.sh.hs = List.replicate m (0, 0)
  len : tb.t.arr.length = 2 ^ p
  loc : ∀ t A, c.th t = some A → LocG m tb.t.arr A
  cnt : occ tb.t.arr = tb.t.items + Conc.cnt (inTab pend) c.th
  bound : tb.t.items + Conc.cnt (inTab past) c.th ≤ 2 ^ p / 2 - 1 + n
  res : ∀ t o r, Ev.res t o r ∈ c.hist → o.key ≠ 0 ∧ o.key ∈ tb.t.arr

theorem LocG.mono {m : Nat} {arr arr' : List Nat} {A : Active Loc Op}
    (hm : ∀ k, k ≠ 0 → k ∈ arr → k ∈ arr') (h : LocG m arr A) : LocG m arr' A := by
  obtain ⟨op, l, st⟩ := A
  obtain ⟨y, k, h1, h2, h3, h4⟩ := h
  refine ⟨y, k, h1, h2, h3, ?_⟩
  cases l with
  | tab o l => exact ⟨h4.1, LocIn.mono h3 hm h4.2⟩
  | _ => exact h4

theorem one_init (a size p m : Nat) (hp : nextPow2 size = 2 ^ p) :
    One (n := n) p m (Config.init n (new a size m)) ⟨ConcSet.new a size, 0⟩ where
  tabs := rfl
  ew := rfl
  hs := rfl
  len := by simp [ConcSet.new, hp]
  loc := by simp [Config.init]
  cnt := by
    simp only [Config.init, ConcSet.new]
    rw [occ_replicate, cnt_eq_zero (fun t => rfl)]
  bound := by
    simp only [Config.init, ConcSet.new]
    rw [cnt_eq_zero (fun t => rfl)]
    omega
  res := by simp [Config.init]

theorem cnt_le {α : Type} (p : α → Bool) (f : Fin n → α) : Conc.cnt p f ≤ n := by
  unfold Conc.cnt
  refine (Finset.sum_le_sum (g := fun _ => 1) (fun i _ => ?_)).trans (by simp)
  split <;> omega

/-- The operations: insertions of keys that are not zero, with one of `m` handles. -/
def InsOp (m : Nat) (o : Op) : Prop := ∃ h k, o = .insert h k ∧ k ≠ 0 ∧ h < m

theorem hs_get {m h : Nat} (hh : h < m) : (List.replicate m ((0, 0) : Nat × Nat))[h]? = some (0, 0) := by
  rw [List.getElem?_replicate, if_pos hh]

/-- A step in the table. -/
theorem one_tab {p m : Nat} {c : Config n Shared Loc Op SetRet} {tb : Tab} (h : One p m c tb)
    {t : Fin n} {y k : Nat} {lb : ConcSet.Loc} {st : Nat} (hk : k ≠ 0)
    (hth : c.th t = some ⟨.insert y k, .tab y lb, st⟩) (hl : LocIn k tb.t.arr lb)
    {t' : ConcSet.Shared} {out : ConcSet.Loc ⊕ SetRet} (hm : ConcSet.step true tb.t lb = some (t', out))
    (x : Option (Active Loc Op)) (hx1 : inTab pend x = outB pend out)
    (hx2 : inTab past x = outB past out) (hx3 : ∀ A, x = some A → LocG m t'.arr A)
    (e : List (Ev n Op SetRet)) (he : ∀ u o' r, Ev.res u o' r ∈ e → o'.key ≠ 0 ∧ o'.key ∈ t'.arr) :
    One p m ({ c with
      sh := { c.sh with tabs := [tb].set 0 { tb with t := t' } },
      th := Function.update c.th t x, hist := c.hist ++ e } : Config n Shared Loc Op SetRet)
      ⟨t', tb.copy⟩ := by
  obtain ⟨h1, h2, h3, h4, h5⟩ := table_step hk hl hm
  have hlen := h.len
  have hcn := h.cnt
  have hbd := h.bound
  have e1 := cnt_update_gen (p := inTab pend) (f := c.th) (t := t) x
  have e2 := cnt_update_gen (p := inTab past) (f := c.th) (t := t) x
  have e3 := cnt_le (inTab past) (Function.update c.th t x)
  rw [hx1, hth] at e1
  rw [hx2, hth] at e2
  simp only [inTab] at e1 e2
  refine ⟨rfl, h.ew, h.hs, by simp only; omega, fun u A hu => ?_, ?_, ?_, fun u o r hr => ?_⟩
  · rcases ConcMap.upd_cases hu with ⟨_, hy⟩ | ⟨_, hy⟩
    · exact hx3 A hy
    · exact (h.loc u A hy).mono h3
  · simp only
    omega
  · simp only
    rcases h5 with h5 | ⟨h5, h6, h7⟩
    · omega
    · rw [hlen] at h6
      omega
  · rcases List.mem_append.1 hr with hr | hr
    · obtain ⟨h6, h7⟩ := h.res u o r hr
      exact ⟨h6, h3 _ h6 h7⟩
    · exact he u o r hr

/-- What the growing table does with the outcome of the operation of the table. -/
theorem tab_step {s : Shared} {y k : Nat} {lb : ConcSet.Loc} {tb : Tab} {arr : List Nat} (hg : s.hs[y]? = some (0, 0))
    (ht : s.tabs = [tb]) (hl : LocIn k arr lb) {s' : Shared} {o : Loc ⊕ SetRet}
    (h : step s (.tab y lb) = some (s', o)) :
    ∃ t' out, ConcSet.step true tb.t lb = some (t', out) ∧
      s' = { s with tabs := [tb].set 0 { tb with t := t' } } ∧
      ((∃ l1, out = .inl l1 ∧ o = .inl (.tab y l1)) ∨ (out = .inr .full ∧ ∃ cc, o = .inl (.g1 y cc)) ∨
        (∃ b, out = .inr (.bool b) ∧ o = .inr (.bool b))) := by
  simp only [step, hg, ht, List.getElem?_cons_zero] at h
  cases hm : ConcSet.step true tb.t lb with
  | none => rw [hm] at h; cases h
  | some r =>
    obtain ⟨t', out⟩ := r
    rw [hm] at h
    simp only [Option.some.injEq, Prod.mk.injEq] at h
    obtain ⟨h1, h2⟩ := h
    refine ⟨t', out, rfl, h1.symm, ?_⟩
    cases out with
    | inl l1 => exact Or.inl ⟨l1, rfl, h2.symm⟩
    | inr r =>
      cases r with
      | bool b => exact Or.inr (Or.inr ⟨b, rfl, h2.symm⟩)
      | full =>
        refine Or.inr (Or.inl ⟨rfl, ?_⟩)
        cases lb with
        | check k' => exact ⟨_, h2.symm⟩
        | probe k' i c => exact ⟨_, h2.symm⟩
        | incr k' => simp [ConcSet.step] at hm
        | look k' i => exact hl.elim
        | cas k' i c =>
          simp only [ConcSet.step] at hm
          repeat' split at hm
          all_goals simp at hm

theorem one_step {p m : Nat} {c c' : Config n Shared Loc Op SetRet} {tb : Tab} (h : One p m c tb)
    (hs : Step obj (InsOp m) c c') :
    2 ≤ c'.sh.tabs.length ∨ ∃ tb', One p m c' tb' := by
  cases hs with
  | call t op hidle hok =>
    refine Or.inr ⟨tb, h.tabs, h.ew, h.hs, h.len, fun u A hu => ?_, ?_, ?_,
      fun u o r hr => h.res u o r (by simpa using hr)⟩
    · rcases ConcMap.upd_cases hu with ⟨_, hx⟩ | ⟨_, hx⟩
      · injection hx with hx
        subst hx
        obtain ⟨y, k, rfl, h1, h2⟩ := hok
        exact ⟨y, k, rfl, h2, h1, rfl, rfl⟩
      · exact h.loc u A hx
    · simp only
      rw [cnt_update_same (by
        obtain ⟨y, k, rfl, h1, h2⟩ := hok
        rw [hidle]; rfl)]
      exact h.cnt
    · simp only
      rw [cnt_update_same (by
        obtain ⟨y, k, rfl, h1, h2⟩ := hok
        rw [hidle]; rfl)]
      exact h.bound
  | internal t A s' l' hth hst =>
    obtain ⟨o, l, st⟩ := A
    replace hst : step c.sh l = some (s', .inl l') := hst
    obtain ⟨y, k, rfl, hh, hk, hl⟩ := h.loc t _ hth
    simp only at hl
    have hg : c.sh.hs[y]? = some (0, 0) := by rw [h.hs]; exact hs_get hh
    cases l with
    | ins0 y' k' =>
      simp only at hl
      obtain ⟨rfl, rfl⟩ := hl
      simp only [step, hg, h.ew] at hst
      rw [if_neg (by omega)] at hst
      simp only [Option.some.injEq, Prod.mk.injEq, Sum.inl.injEq] at hst
      obtain ⟨rfl, rfl⟩ := hst
      refine Or.inr ⟨tb, h.tabs, h.ew, h.hs, h.len, fun u A hu => ?_, ?_, ?_, h.res⟩
      · rcases ConcMap.upd_cases hu with ⟨_, hx⟩ | ⟨_, hx⟩
        · injection hx with hx
          subst hx
          exact ⟨_, _, rfl, hh, hk, rfl, rfl⟩
        · exact h.loc u A hx
      · simp only
        rw [cnt_update_same (by rw [hth]; rfl)]
        exact h.cnt
      · simp only
        rw [cnt_update_same (by rw [hth]; rfl)]
        exact h.bound
    | tab y' lb =>
      simp only at hl
      obtain ⟨rfl, hl⟩ := hl
      obtain ⟨t', out, hm, rfl, ho⟩ := tab_step hg h.tabs hl hst
      obtain ⟨h1, h2, h3, h4, h5⟩ := table_step hk hl hm
      have key := fun x hx1 hx2 hx3 => one_tab h hk hth hl hm x hx1 hx2 hx3 [] (by simp)
      rw [List.append_nil] at key
      right
      rcases ho with ⟨l1, rfl, ho⟩ | ⟨rfl, cc, ho⟩ | ⟨b, _, ho⟩
      · injection ho with ho
        subst ho
        exact ⟨_, key _ rfl rfl (fun A hA => by
          injection hA with hA
          subst hA
          exact ⟨_, _, rfl, hh, hk, rfl, h2⟩)⟩
      · injection ho with ho
        subst ho
        exact ⟨_, key _ rfl rfl (fun A hA => by
          injection hA with hA
          subst hA
          exact ⟨_, _, rfl, hh, hk, rfl⟩)⟩
      · cases ho
    | g1 y' cc =>
      left
      simp only at hl
      subst hl
      simp only [step, hg, h.tabs, List.getElem?_cons_zero, List.length_singleton] at hst
      rw [if_pos trivial] at hst
      simp only [Option.some.injEq, Prod.mk.injEq, Sum.inl.injEq] at hst
      obtain ⟨rfl, rfl⟩ := hst
      simp
    | _ => exact hl.elim
  | ret t A s' r hth hst =>
    obtain ⟨o, l, st⟩ := A
    replace hst : step c.sh l = some (s', .inr r) := hst
    obtain ⟨y, k, rfl, hh, hk, hl⟩ := h.loc t _ hth
    simp only at hl
    have hg : c.sh.hs[y]? = some (0, 0) := by rw [h.hs]; exact hs_get hh
    cases l with
    | tab y' lb =>
      simp only at hl
      obtain ⟨rfl, hl⟩ := hl
      obtain ⟨t', out, hm, rfl, ho⟩ := tab_step hg h.tabs hl hst
      obtain ⟨h1, h2, h3, h4, h5⟩ := table_step hk hl hm
      right
      rcases ho with ⟨l1, _, ho⟩ | ⟨_, cc, ho⟩ | ⟨b, rfl, ho⟩
      · cases ho
      · cases ho
      · exact ⟨_, one_tab h hk hth hl hm none rfl rfl (fun A hA => by cases hA) [.res t (.insert y' k) r]
          (fun u o'' r' hu => by
            simp only [List.mem_singleton, Ev.res.injEq] at hu
            rw [hu.2.1]
            exact ⟨hk, h2⟩)⟩
    | ins0 y' k' =>
      simp only at hl
      obtain ⟨rfl, rfl⟩ := hl
      simp only [step, hg, h.ew] at hst
      rw [if_neg (by omega)] at hst
      simp at hst
    | g1 y' cc =>
      simp only at hl
      subst hl
      simp only [step, hg, h.tabs, List.getElem?_cons_zero, List.length_singleton] at hst
      rw [if_pos trivial] at hst
      simp at hst
    | _ => exact hl.elim

theorem one_or_more {a size p m : Nat} (hp : nextPow2 size = 2 ^ p) {c : Config n Shared Loc Op SetRet}
    (h : Reach obj (InsOp m) (new a size m) c) : 2 ≤ c.sh.tabs.length ∨ ∃ tb, One p m c tb := by
  refine Reach.induct (P := fun c => 2 ≤ c.sh.tabs.length ∨ ∃ tb, One p m c tb)
    (Or.inr ⟨_, one_init a size p m hp⟩) ?_ h
  rintro c c' _ (ih | ⟨tb, ih⟩) hs
  · refine Or.inl (ih.trans ?_)
    cases hs with
    | call => exact Nat.le_refl _
    | internal t A s' l' hth hst => exact step_len hst
    | ret t A s' r hth hst => exact step_len hst
  · exact one_step ih hs

end Growing
end Verif
