import Verif.Lemmas.GrowingStep
import Verif.Lemmas.Growing

/-!
# The item counters of the tables of a growing set
-/
namespace Verif
namespace Growing
open Conc

/-- Item counter of table `v`. -/
def itm (s : Shared) (v : Nat) : Nat := match s.tabs[v]? with
  | some tb => tb.t.items
  | none => 0

/-- The table whose counter a thread is about to increase. -/
def tg (s : Shared) : Loc → Option Nat
  | .tab h (.incr _) => (s.hs[h]?).map (·.2)
  | .mig _ w (.incr _ _) _ => some w
  | _ => none

def tgo (s : Shared) : Option (Active Loc Op) → Option Nat
  | none => none
  | some A => tg s A.loc

/-- The same after a step. -/
def tgs (s : Shared) : Loc ⊕ ConcSet.SetRet → Option Nat
  | .inl l => tg s l
  | .inr _ => none

def one (o : Option Nat) (v : Nat) : Nat := if o == some v then 1 else 0

theorem one_some (w v : Nat) : one (some w) v = if v = w then 1 else 0 := by
  by_cases h : v = w
  · subst h; simp [one]
  · rw [if_neg h]
    unfold one
    rw [if_neg]
    intro e
    exact h (Option.some.inj (beq_iff_eq.1 e)).symm

theorem one_none (v : Nat) : one none v = 0 := rfl

def incS : ConcSet.Loc → Nat
  | .incr _ => 1
  | _ => 0

def incO : ConcSet.Loc ⊕ ConcSet.SetRet → Nat
  | .inl l => incS l
  | .inr _ => 0

def incM : Migrate.Loc → Nat
  | .incr _ _ => 1
  | _ => 0

def incMO : Migrate.Loc ⊕ Unit → Nat
  | .inl l => incM l
  | .inr _ => 0

theorem lt_of_some {arr : List Nat} {i x : Nat} (h : arr[i]? = some x) : i < arr.length := by
  by_contra hx
  rw [List.getElem?_eq_none (by omega)] at h
  cases h

theorem conc_delta {g : Bool} {s s' : ConcSet.Shared} {l : ConcSet.Loc} {out : ConcSet.Loc ⊕ ConcSet.SetRet}
    (hk : ∀ k i c, l = .cas k i c → k ≠ 0) (h : ConcSet.step g s l = some (s', out)) :
    s'.items + incO out + occ s.arr = s.items + incS l + occ s'.arr := by
  cases l with
  | check k =>
    simp only [ConcSet.step] at h
    split at h
    · cases h; rfl
    · split at h <;> · cases h; rfl
  | probe k idx cols =>
    simp only [ConcSet.step] at h
    split at h
    · cases h; rfl
    · split at h
      · cases h
      · split at h
        · cases h; rfl
        · split at h <;> · cases h; rfl
  | cas k i cols =>
    simp only [ConcSet.step] at h
    split at h
    · cases h
    · rename_i prev hp
      split at h
      · rename_i h0
        subst h0
        cases h
        simp only [incO, incS]
        rw [occ_set (lt_of_some hp) hp (hk k i cols rfl)]
        omega
      · split at h <;> · cases h; rfl
  | incr k =>
    simp only [ConcSet.step] at h
    cases h
    simp only [incO, incS]
  | look k idx =>
    simp only [ConcSet.step] at h
    split at h
    · cases h
    · split at h
      · cases h; rfl
      · split at h <;> · cases h; rfl

theorem next_inc (i e : Nat) : incM (Migrate.next i e) = 0 := by
  unfold Migrate.next
  split <;> rfl

theorem mig_delta {s s' : Migrate.Shared} {l : Migrate.Loc} {out : Migrate.Loc ⊕ Unit}
    (hk : ∀ k j i e, l = .cas k j i e → k ≠ 0) (h : Migrate.step s l = some (s', out)) :
    s'.new.items + incMO out + occ s.new.arr = s.new.items + incM l + occ s'.new.arr := by
  cases l with
  | enter => simp only [Migrate.step] at h; cases h; rfl
  | claim =>
    simp only [Migrate.step] at h
    split at h <;> · cases h; rfl
  | slot i e =>
    simp only [Migrate.step] at h
    split at h
    · cases h
    · split at h
      · cases h; rfl
      · cases h
        show _ + incM (Migrate.next i e) + _ = _
        rw [next_inc]
        rfl
  | probe k idx i e =>
    simp only [Migrate.step] at h
    split at h
    · cases h
    · split at h
      · cases h
        show _ + incM (Migrate.next i e) + _ = _
        rw [next_inc]
        rfl
      · split at h <;> · cases h; rfl
  | cas k j i e =>
    simp only [Migrate.step] at h
    split at h
    · cases h
    · rename_i prev hp
      split at h
      · rename_i h0
        subst h0
        cases h
        simp only [incMO, incM]
        rw [occ_set (lt_of_some hp) hp (hk k j i e rfl)]
        omega
      · split at h
        · cases h
          show _ + incM (Migrate.next i e) + _ = _
          rw [next_inc]
          rfl
        · cases h; rfl
  | incr i e =>
    simp only [Migrate.step] at h
    cases h
    show _ + incM (Migrate.next i e) + _ = _
    rw [next_inc]
    rfl
  | leave => simp only [Migrate.step] at h; cases h; rfl
  | wait =>
    simp only [Migrate.step] at h
    split at h <;> · cases h; rfl

/-- How a step changes the counters. -/
structure Delta (s s' : Shared) (l : Loc) (out : Loc ⊕ ConcSet.SetRet) : Prop where
  hs : ∀ h, h ≠ locH l → s'.hs[h]? = s.hs[h]?
  old : ∀ v, v < s.tabs.length → itm s' v + one (tgs s' out) v + occ (ar s v) = itm s v + one (tg s l) v + occ (ar s' v)
  len : s.tabs.length ≤ s'.tabs.length
  new : ∀ v, s.tabs.length ≤ v → v < s'.tabs.length → itm s' v = 0 ∧ occ (ar s' v) = 0
  tgt : ∀ v, tgs s' out = some v → v < s.tabs.length

theorem Delta.quiet {s s' : Shared} {l : Loc} {out : Loc ⊕ ConcSet.SetRet} (ht : s'.tabs = s.tabs)
    (hs : ∀ h, h ≠ locH l → s'.hs[h]? = s.hs[h]?) (h1 : tg s l = none) (h2 : tgs s' out = none) : Delta s s' l out where
  hs := hs
  old v _ := by
    rw [h1, h2]
    unfold itm ar
    rw [ht]
  len := by rw [ht]
  new v h h' := by rw [ht] at h'; omega
  tgt v h := by rw [h2] at h; cases h

theorem tg_afterGet (s : Shared) (a h le : Nat) (c : Cont) : tg s (afterGet a h le c) = none := by
  cases c <;> simp only [afterGet] <;> (try split) <;> rfl

theorem step_delta {a : Nat} {s s' : Shared} {l : Loc} {out : Loc ⊕ ConcSet.SetRet} (hg : GI a s) (hl : LI a s l)
    (h : step s l = some (s', out)) : Delta s s' l out := by
  cases l with
  | ins0 x k =>
    simp only [step] at h
    split at h
    · cases h
    · split at h <;> · cases h; exact .quiet rfl (fun _ _ => rfl) rfl rfl
  | con0 x k =>
    simp only [step] at h
    split at h
    · cases h
    · split at h <;> · cases h; exact .quiet rfl (fun _ _ => rfl) rfl rfl
  | gt1 x c =>
    simp only [step] at h
    split at h
    · cases h
    · cases h
      refine .quiet rfl (fun y hy => ?_) rfl rfl
      simp only [locH] at hy
      exact List.getElem?_set_ne (fun e => hy e.symm)
  | gt2 x c =>
    simp only [step] at h
    split at h
    · cases h
    · rename_i le _ _
      cases h
      refine .quiet rfl (fun y hy => ?_) rfl ?_
      · simp only [locH] at hy
        exact List.getElem?_set_ne (fun e => hy e.symm)
      · split
        · rfl
        · exact tg_afterGet _ _ _ _ _
  | tab x m =>
    simp only [step] at h
    split at h
    · cases h
    · rename_i le lt hx
      split at h
      · cases h
      · rename_i tb htb
        split at h
        · cases h
        · rename_i t' o hst
          have hlt : lt < s.tabs.length := by
            have := (hg.hnd x le lt hx).2
            have := hg.tr_lt
            omega
          have hk : ∀ k i c, m = .cas k i c → k ≠ 0 := by
            rintro k i c rfl
            obtain ⟨op, st, h1⟩ := hl le lt hx
            exact h1.2.1
          have hd := conc_delta hk hst
          injection h with h
          injection h with h1 h2
          have hts : s'.tabs = s.tabs.set lt { tb with t := t' } := by rw [← h1]
          have hhs : s'.hs = s.hs := by rw [← h1]
          have hget := get_set hlt hts
          have htg : ∀ v, one (tg s (.tab x m)) v = if v = lt then incS m else 0 := by
            intro v
            cases m <;> simp [tg, one_some, one_none, hx, incS]
          have hto : ∀ v, one (tgs s' out) v = if v = lt then incO o else 0 := by
            intro v
            rw [← h2]
            cases o with
            | inl l' => cases l' <;> simp [tgs, tg, one_some, one_none, hhs, hx, incO, incS]
            | inr r => cases r <;> cases m <;> simp [tgs, tg, one_none, incO]
          refine ⟨fun _ _ => by rw [hhs], fun v hv => ?_, by rw [hts, List.length_set], fun v h3 h4 => ?_, fun v h3 => ?_⟩
          · rw [htg, hto]
            unfold itm ar
            rw [hget]
            by_cases hvl : v = lt
            · subst hvl
              rw [if_pos rfl, if_pos rfl, if_pos rfl, htb]
              exact hd
            · rw [if_neg hvl, if_neg hvl, if_neg hvl]
          · rw [hts, List.length_set] at h4
            omega
          · by_contra hv
            have := hto v
            rw [if_neg (by omega)] at this
            rw [h3, one_some, if_pos rfl] at this
            cases this
  | g1 x c =>
    simp only [step] at h
    split at h
    · cases h
    · rename_i le lt hx
      split at h
      · cases h
      · rename_i tb htb
        split at h
        · injection h with h
          injection h with h1 h2
          have hts : s'.tabs = s.tabs ++ [⟨ConcSet.new tb.t.a (tb.t.arr.length * 2), 0⟩] := by rw [← h1]
          have hhs : s'.hs = s.hs := by rw [← h1]
          refine ⟨fun _ _ => by rw [hhs], fun v hv => ?_, by rw [hts, List.length_append]; omega, fun v h3 h4 => ?_, fun v h3 => ?_⟩
          · rw [← h2]
            unfold itm ar
            rw [hts, List.getElem?_append_left hv]
            rfl
          · have hv : v = s.tabs.length := by
              rw [hts, List.length_append, List.length_singleton] at h4
              omega
            unfold itm ar
            rw [hts, hv, List.getElem?_append_right (Nat.le_refl _), Nat.sub_self]
            exact ⟨rfl, occ_replicate _⟩
          · rw [← h2] at h3
            cases h3
        · cases h
          exact .quiet rfl (fun _ _ => rfl) rfl rfl
  | g2 x w c =>
    simp only [step] at h
    split at h
    · cases h
    · cases h
      exact .quiet rfl (fun _ _ => rfl) rfl rfl
  | mig x w m c =>
    simp only [step] at h
    split at h
    · cases h
    · rename_i le lt hx
      obtain ⟨hW, _, hok⟩ := hl le lt hx
      split at h
      · rename_i old nw hold hnw
        split at h
        · cases h
        · rename_i t' o hst
          have hk : ∀ k j i e, m = .cas k j i e → k ≠ 0 := by
            rintro k j i e rfl
            exact hok.1
          have hd := mig_delta hk hst
          injection h with h
          injection h with h1 h2
          have hne : lt ≠ w := by have := hW.1; omega
          have hwl := hW.2.1
          have hts : s'.tabs = (s.tabs.set w { nw with t := t'.new }).set lt { old with copy := t'.copy } := by rw [← h1]
          have hhs : s'.hs = s.hs := by rw [← h1]
          have hltl : lt < s.tabs.length := by have := hW.1; omega
          have hget : ∀ u, s'.tabs[u]? = if u = lt then some { old with copy := t'.copy } else if u = w then some { nw with t := t'.new } else s.tabs[u]? := by
            intro u
            rw [hts, List.getElem?_set, List.getElem?_set]
            by_cases h3 : u = lt
            · subst h3; simp [hltl]
            · rw [if_neg (fun e => h3 e.symm), if_neg h3]
              by_cases h4 : u = w
              · subst h4; simp [hwl]
              · rw [if_neg (fun e => h4 e.symm), if_neg h4]
          have htg : ∀ v, one (tg s (.mig x w m c)) v = if v = w then incM m else 0 := by
            intro v
            cases m <;> simp [tg, one_some, one_none, incM]
          have hto : ∀ v, one (tgs s' out) v = if v = w then incMO o else 0 := by
            intro v
            rw [← h2]
            cases o with
            | inl l' => cases l' <;> simp [tgs, tg, one_some, one_none, incMO, incM]
            | inr r => simp [tgs, tg, one_none, incMO]
          refine ⟨fun _ _ => by rw [hhs], fun v hv => ?_, by rw [hts, List.length_set, List.length_set], fun v h3 h4 => ?_, fun v h3 => ?_⟩
          · rw [htg, hto]
            unfold itm ar
            rw [hget]
            by_cases hvl : v = lt
            · subst hvl
              rw [if_pos rfl, if_neg hne, if_neg hne, hold]
            · rw [if_neg hvl]
              by_cases hvw : v = w
              · subst hvw
                rw [if_pos rfl, if_pos rfl, if_pos rfl, hnw]
                exact hd
              · rw [if_neg hvw, if_neg hvw, if_neg hvw]
          · rw [hts, List.length_set, List.length_set] at h4
            omega
          · by_contra hv
            have := hto v
            rw [if_neg (by omega)] at this
            rw [h3, one_some, if_pos rfl] at this
            cases this
      · cases h
  | g8 x w c =>
    simp only [step] at h
    cases h
    exact .quiet rfl (fun _ _ => rfl) rfl rfl
  | g9 x w c =>
    simp only [step] at h
    split at h
    · cases h
    · cases h
      exact .quiet rfl (fun _ _ => rfl) rfl rfl

variable {n : Nat}

/-- Every counter and the threads that are about to increase it. -/
def Counted (c : Config n Shared Loc Op ConcSet.SetRet) : Prop :=
  (∀ v, v < c.sh.tabs.length → itm c.sh v + cnt (fun o => o == some v) (fun t => tgo c.sh (c.th t)) = occ (ar c.sh v)) ∧
    ∀ t v, tgo c.sh (c.th t) = some v → v < c.sh.tabs.length

theorem counted_move {a : Nat} {c c' : Config n Shared Loc Op ConcSet.SetRet} (hCI : CI a c) (hc : Counted c) {t : Fin n}
    {A : Active Loc Op} (hA : c.th t = some A) {out : Loc ⊕ ConcSet.SetRet} (hd : Delta c.sh c'.sh A.loc out) {x : Option (Active Loc Op)}
    (hx : tgo c'.sh x = tgs c'.sh out) (hth : c'.th = Function.update c.th t x) : Counted c' := by
  have hother : ∀ u, u ≠ t → tgo c'.sh (c.th u) = tgo c.sh (c.th u) := by
    intro u hu
    cases hB : c.th u with
    | none => rfl
    | some B =>
      have hne : locH B.loc ≠ locH A.loc := by
        intro e
        rw [hCI.lh u B hB, hCI.lh t A hA] at e
        exact hu (hCI.ex u t B A hB hA e)
      have hh := hd.hs _ hne
      show tg c'.sh B.loc = tg c.sh B.loc
      generalize B.loc = l at hh
      cases l with
      | tab y m =>
        cases m with
        | incr k =>
          simp only [locH] at hh
          simp only [tg, hh]
        | _ => rfl
      | mig y w m c => cases m <;> rfl
      | _ => rfl
  have hfun : (fun u => tgo c'.sh (c'.th u)) = Function.update (fun u => tgo c.sh (c.th u)) t (tgs c'.sh out) := by
    funext u
    rw [hth]
    by_cases hu : u = t
    · subst hu
      rw [Function.update_self, Function.update_self, hx]
    · rw [Function.update_of_ne hu, Function.update_of_ne hu, hother u hu]
  refine ⟨fun v hv => ?_, fun u v hv => ?_⟩
  swap
  · have := congrFun hfun u
    rw [show tgo c'.sh (c'.th u) = _ from this] at hv
    refine Nat.lt_of_lt_of_le ?_ hd.len
    by_cases hu : u = t
    · subst hu
      rw [Function.update_self] at hv
      exact hd.tgt v hv
    · rw [Function.update_of_ne hu] at hv
      exact hc.2 u v hv
  rw [hfun]
  have hcu := cnt_update (fun o : Option Nat => o == some v) (fun u => tgo c.sh (c.th u)) t (tgs c'.sh out)
  have htt : tgo c.sh (c.th t) = tg c.sh A.loc := by rw [hA]; rfl
  rw [htt] at hcu
  change _ + one (tg c.sh A.loc) v = _ + one (tgs c'.sh out) v at hcu
  by_cases hlt : v < c.sh.tabs.length
  · have h1 := hc.1 v hlt
    have h2 := hd.old v hlt
    omega
  · obtain ⟨h1, h2⟩ := hd.new v (by omega) hv
    rw [h1, h2, Nat.zero_add]
    refine cnt_eq_zero (fun u => ?_)
    rw [beq_eq_false_iff_ne]
    by_cases hu : u = t
    · subst hu
      rw [Function.update_self]
      intro e
      exact hlt (hd.tgt v e)
    · rw [Function.update_of_ne hu]
      intro e
      exact hlt (hc.2 u v e)

theorem timely_counted {a size m : Nat} (hs : 0 < size) {c : Config n Shared Loc Op ConcSet.SetRet}
    (h : ReachTimely (new a size m) c) : Counted c := by
  induction h with
  | init =>
    refine ⟨fun v hv => ?_, fun t v h => by cases h⟩
    have hv : v = 0 := by simpa [Config.init, new] using hv
    subst hv
    rw [cnt_eq_zero (fun t => rfl)]
    exact (occ_replicate _).symm
  | @step c c' hr hst hex hl ih =>
    have hCI := timely_CI hs hr
    cases hst with
    | call t op hidle hok =>
      have he : ∀ u, tgo c.sh (Function.update c.th t (some ⟨op, obj.start op, 0⟩) u) = tgo c.sh (c.th u) := by
        intro u
        by_cases hu : u = t
        · subst hu
          rw [Function.update_self, hidle]
          cases op <;> rfl
        · rw [Function.update_of_ne hu]
      refine ⟨fun v hv => ?_, fun u v hv => ih.2 u v ((he u).symm.trans hv)⟩
      rw [← ih.1 v hv]
      congr 1
      apply congrArg
      funext u
      exact he u
    | internal t A s' l' hA hstep =>
      exact counted_move hCI ih hA (step_delta hCI.g (hCI.li t A hA) hstep) rfl rfl
    | ret t A s' r hA hstep =>
      exact counted_move hCI ih hA (step_delta hCI.g (hCI.li t A hA) hstep) rfl rfl

/-- When no thread is inside an operation, the counters are right. -/
theorem timely_items {a size m : Nat} (hs : 0 < size) {c : Config n Shared Loc Op ConcSet.SetRet}
    (h : ReachTimely (new a size m) c) (hq : ∀ t, c.th t = none) {v : Nat} (hv : v < c.sh.tabs.length) :
    itm c.sh v = occ (ar c.sh v) := by
  have := (timely_counted hs h).1 v hv
  rw [cnt_eq_zero (fun t => by rw [hq t]; rfl)] at this
  exact this

theorem conc_ret {s s' : ConcSet.Shared} {l : ConcSet.Loc} {r : ConcSet.SetRet} (h : ConcSet.step true s l = some (s', .inr r)) :
    (∃ b, r = .bool b) ∨ (r = .full ∧ ((∃ k, l = .check k) ∨ ∃ k i c, l = .probe k i c)) := by
  cases l <;> simp only [ConcSet.step] at h
  all_goals repeat' (first | (split at h) | (cases h; done))
  all_goals first
    | (cases h; done)
    | (cases h; exact .inl ⟨_, rfl⟩)
    | (cases h; exact .inr ⟨rfl, .inl ⟨_, rfl⟩⟩)
    | (cases h; exact .inr ⟨rfl, .inr ⟨_, _, _, rfl⟩⟩)

theorem step_ret {s s' : Shared} {l : Loc} {r : ConcSet.SetRet} (h : step s l = some (s', .inr r)) : ∃ b, r = .bool b := by
  cases l with
  | tab x m =>
    simp only [step] at h
    split at h
    · cases h
    · split at h
      · cases h
      · split at h
        · cases h
        · rename_i t' o hst
          injection h with h
          injection h with _ h2
          cases o with
          | inl l' => cases h2
          | inr r' =>
            rcases conc_ret hst with ⟨b, rfl⟩ | ⟨rfl, ⟨k, rfl⟩ | ⟨k, i, c, rfl⟩⟩
            · refine ⟨b, ?_⟩
              cases m <;> cases h2 <;> rfl
            · cases h2
            · cases h2
  | _ =>
    simp only [step] at h
    repeat' (first | (split at h) | (cases h; done))
    all_goals first
      | (cases h; done)
      | (cases h; exact ⟨_, rfl⟩)

/-- Every insertion that was called has returned or is running. -/
theorem timely_called {s : Shared} {c : Config n Shared Loc Op ConcSet.SetRet} (h : ReachTimely s c) (t : Fin n) (i k : Nat)
    (he : Ev.inv t (.insert i k) ∈ c.hist) :
    (∃ b, Ev.res t (.insert i k) (.bool b) ∈ c.hist) ∨ ∃ A, c.th t = some A ∧ A.op = .insert i k := by
  induction h with
  | init => cases he
  | step hr hst hex hl ih =>
    cases hst with
    | call u op hidle hok =>
      simp only [List.mem_append, List.mem_singleton] at he ⊢
      by_cases hu : t = u
      · subst hu
        rcases he with he | he
        · rcases ih he with ⟨b, hb⟩ | ⟨A, hA, _⟩
          · exact .inl ⟨b, .inl hb⟩
          · rw [hidle] at hA; cases hA
        · injection he with _ e
          exact .inr ⟨_, Function.update_self .., e.symm⟩
      · rcases he with he | he
        · rw [Function.update_of_ne hu]
          rcases ih he with ⟨b, hb⟩ | hA
          · exact .inl ⟨b, .inl hb⟩
          · exact .inr hA
        · injection he with e _
          exact absurd e hu
    | internal u A s' l' hA hstep =>
      rcases ih he with hb | ⟨B, hB, hop⟩
      · exact .inl hb
      · by_cases hu : t = u
        · subst hu
          rw [hA] at hB
          injection hB with hB
          subst hB
          exact .inr ⟨_, Function.update_self .., hop⟩
        · exact .inr ⟨B, by simpa only [Function.update_of_ne hu] using hB, hop⟩
    | ret u A s' r hA hstep =>
      simp only [List.mem_append, List.mem_singleton, reduceCtorEq, or_false] at he ⊢
      rcases ih he with ⟨b, hb⟩ | ⟨B, hB, hop⟩
      · exact .inl ⟨b, .inl hb⟩
      · by_cases hu : t = u
        · subst hu
          rw [hA] at hB
          injection hB with hB
          subst hB
          obtain ⟨b, rfl⟩ := step_ret hstep
          exact .inl ⟨b, .inr (by rw [hop])⟩
        · exact .inr ⟨B, by simpa only [Function.update_of_ne hu] using hB, hop⟩

theorem ReachTimely.reach {s : Shared} {c : Config n Shared Loc Op ConcSet.SetRet} (h : ReachTimely s c) :
    Reach obj (fun _ => True) s c := by
  induction h with
  | init => exact .init
  | step _ hst _ _ ih =>
    refine .step ih ?_
    cases hst with
    | call t op h1 _ => exact .call _ t op h1 trivial
    | internal t A s' l' h1 h2 => exact .internal _ t A s' l' h1 h2
    | ret t A s' r h1 h2 => exact .ret _ t A s' r h1 h2

end Growing
end Verif
