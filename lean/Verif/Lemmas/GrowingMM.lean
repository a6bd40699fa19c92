import Verif.Model.GrowingMM
import Verif.Lemmas.MigrateMM

/-!
# The growing multimap while it does not grow

As long as at most half as many insertions have been called as the first table has slots, no
insertion finds the table full, and the execution is one of the lock-free multimap.
-/
namespace Verif
namespace Conc

variable {n : Nat} {S L Op R : Type}

/-- Whether an event is a call. -/
def Ev.isInv : Ev n Op R → Bool
  | .inv _ _ => true
  | .res _ _ _ => false

/-- Whether an event is a return. -/
def Ev.isRes : Ev n Op R → Bool
  | .inv _ _ => false
  | .res _ _ _ => true

/-- Every call has returned or is still running. -/
theorem calls_eq {o : Obj S L Op R} {ok : Op → Prop} {s : S} {c : Config n S L Op R}
    (h : Reach o ok s c) :
    c.hist.countP Ev.isInv = c.hist.countP Ev.isRes + cnt Option.isSome c.th := by
  refine Reach.induct (P := fun c => c.hist.countP Ev.isInv = c.hist.countP Ev.isRes +
    cnt Option.isSome c.th) ?_ ?_ h
  · simp only [Config.init]
    rw [cnt_eq_zero (fun t => rfl)]
    rfl
  · intro c c' _ ih hs
    cases hs with
    | call t op hidle hok =>
      simp only [List.countP_append]
      rw [cnt_update_add (by rw [hidle]; rfl) rfl, ih]
      simp [Ev.isInv, Ev.isRes]
      omega
    | internal t A s' l' hth hst =>
      simp only
      rw [cnt_update_same (by rw [hth]; rfl), ih]
    | ret t A s' r hth hst =>
      have := cnt_update_sub (p := Option.isSome) (f := c.th) (t := t) (x := none)
        (by rw [hth]; rfl) rfl
      simp only [List.countP_append]
      rw [ih]
      simp [Ev.isInv, Ev.isRes]
      omega

end Conc

namespace GrowingMM
open Conc
open ConcMultiMap (MOp MRet acked ackOf)

variable {n : Nat}

/-- The same event of the lock-free multimap. -/
def evMap : Ev n Op MRet → Ev n MOp MRet
  | .inv t o => .inv t (.insert o.k o.v)
  | .res t o r => .res t (.insert o.k o.v) r

/-- The state of a thread of the growing multimap and of the lock-free multimap. -/
def ThR (m : Nat) : Option (Active Loc Op) → Option (Active ConcMultiMap.Loc MOp) → Prop
  | none, none => True
  | some ⟨o, l, _⟩, some ⟨o', l', _⟩ => o.h < m ∧ o' = .insert o.k o.v ∧
      ((l = .ins0 o ∧ l' = .check o.k o.v) ∨ l = .tab o l')
  | _, _ => False

/-- The growing multimap has not grown and agrees with an execution of the lock-free multimap. -/
structure Sim (junk : Nat → Nat) (a p m : Nat) (c : Config n Shared Loc Op MRet)
    (d : Config n ConcMultiMap.Shared ConcMultiMap.Loc MOp MRet) : Prop where
  reach : Reach (ConcMultiMap.obj a) ConcMultiMap.Ok
    ⟨List.replicate (2 ^ p) 0, List.replicate (2 ^ p) none, 0, a⟩ d
  sh : c.sh = ⟨[⟨d.sh, 0⟩], 0, 0, 0, 0, List.replicate m (0, 0), junk⟩
  th : ∀ t, ThR m (c.th t) (d.th t)
  hist : d.hist = c.hist.map evMap
  nofull : ∀ t o, Ev.res t o .full ∉ c.hist

theorem acked_le (h : List (Ev n MOp MRet)) : (acked h).length ≤ h.countP Ev.isRes := by
  unfold acked
  induction h with
  | nil => simp
  | cons e h ih =>
    rw [List.filterMap_cons, List.countP_cons]
    cases e with
    | inv t o => simpa [ackOf, Ev.isRes] using ih
    | res t o r =>
      simp only [Ev.isRes, if_true]
      split
      · omega
      · simp only [List.length_cons]
        omega

theorem isInv_map (h : List (Ev n Op MRet)) :
    (h.map evMap).countP Ev.isInv = h.countP Ev.isInv := by
  rw [List.countP_map]
  congr 1
  funext e
  cases e <;> rfl

theorem sim_init (junk : Nat → Nat) (a size p m : Nat) (hp : nextPow2 size = 2 ^ p) :
    Sim junk a p m (Config.init n (new junk a size m)) (Config.init n
      ⟨List.replicate (2 ^ p) 0, List.replicate (2 ^ p) none, 0, a⟩) where
  reach := Reach.init
  sh := by simp [Config.init, new, ConcMultiMap.new, hp]
  th := fun t => trivial
  hist := rfl
  nofull := by simp [Config.init]

theorem hs_get {m h : Nat} (hh : h < m) :
    (List.replicate m ((0 : Nat), (0 : Nat)))[h]? = some (0, 0) := by
  rw [List.getElem?_replicate, if_pos hh]

/-- An insertion does not find the table full. -/
theorem step_not_full {junk : Nat → Nat} {a p m : Nat} {c : Config n Shared Loc Op MRet}
    {d : Config n ConcMultiMap.Shared ConcMultiMap.Loc MOp MRet} (h : Sim junk a p m c d)
    (hc : c.hist.countP Ev.isInv ≤ 2 ^ p / 2) {t : Fin n} {o' : MOp} {lb : ConcMultiMap.Loc}
    {sb k v : Nat} (hB : d.th t = some ⟨o', lb, sb⟩) (ho' : o' = .insert k v)
    {s1 : ConcMultiMap.Shared} (hm : ConcMultiMap.step d.sh lb = some (s1, .inr .full)) :
    False := by
  have hdi := ConcMultiMap.reach_inv h.reach
  have hLB := hdi.loc t _ hB
  unfold ConcMultiMap.LocOk at hLB
  cases lb with
  | check k v =>
    have h1 := ConcMultiMap.items_eq h.reach
    have h2 := acked_le d.hist
    have h3 := calls_eq h.reach
    have h4 : 0 < Conc.cnt Option.isSome d.th := cnt_pos (t := t) (by rw [hB]; rfl)
    have h5 : d.hist.countP Ev.isInv ≤ 2 ^ p / 2 := by
      rw [h.hist, isInv_map]
      exact hc
    have h6 := hdi.len
    simp only [ConcMultiMap.step] at hm
    rw [if_neg (by rw [h6]; omega)] at hm
    cases hm
  | probe k' v' idx =>
    simp only [ConcMultiMap.step] at hm
    split at hm
    · cases hm
    · split at hm <;> simp at hm
  | cas k' v' j =>
    simp only [ConcMultiMap.step] at hm
    split at hm
    · cases hm
    · split at hm <;> simp at hm
  | store k' v' j =>
    simp only [ConcMultiMap.step] at hm
    split at hm <;> simp at hm
  | incr k' v' => simp [ConcMultiMap.step] at hm
  | look k' idx =>
    rw [ho'] at hLB
    cases hLB.1

theorem sim_step {junk : Nat → Nat} {a p m : Nat} {c c' : Config n Shared Loc Op MRet}
    {d : Config n ConcMultiMap.Shared ConcMultiMap.Loc MOp MRet} (h : Sim junk a p m c d)
    (hs : Step obj (fun o => o.k ≠ 0 ∧ o.h < m) c c')
    (hc : c.hist.countP Ev.isInv ≤ 2 ^ p / 2) : ∃ d', Sim junk a p m c' d' := by
  have hdi := ConcMultiMap.reach_inv h.reach
  cases hs with
  | call t op hidle hok =>
    have hdn : d.th t = none := by
      have := h.th t
      rw [hidle] at this
      cases hd : d.th t with
      | none => rfl
      | some B => rw [hd] at this; exact this.elim
    refine ⟨_, Reach.step h.reach (Step.call d t (.insert op.k op.v) hdn hok.1), h.sh,
      fun u => ?_, ?_, fun u o hu => h.nofull u o (by simpa using hu)⟩
    · by_cases hu : u = t
      · subst hu
        simp only [Function.update_self]
        exact ⟨hok.2, rfl, Or.inl ⟨rfl, rfl⟩⟩
      · simp only [Function.update_of_ne hu]
        exact h.th u
    · simp only [List.map_append, h.hist]
      rfl
  | internal t A s' l' hth hst =>
    obtain ⟨o, l, st⟩ := A
    replace hst : step c.sh l = some (s', .inl l') := hst
    have hR := h.th t
    rw [hth] at hR
    cases hB : d.th t with
    | none => rw [hB] at hR; exact hR.elim
    | some B =>
      rw [hB] at hR
      obtain ⟨o', lb, sb⟩ := B
      obtain ⟨hh, ho', hl⟩ := hR
      have hothers : ∀ (d' : Option (Active ConcMultiMap.Loc MOp)),
          ThR m (some ⟨o, l', st + 1⟩) d' → ∀ u,
          ThR m (Function.update c.th t (some ⟨o, l', st + 1⟩) u)
            (Function.update d.th t d' u) := by
        intro d' hd' u
        by_cases hu : u = t
        · subst hu
          simpa only [Function.update_self] using hd'
        · simp only [Function.update_of_ne hu]
          exact h.th u
      rcases hl with ⟨rfl, rfl⟩ | rfl
      · rw [h.sh] at hst
        simp only [step, hs_get hh] at hst
        rw [if_neg (by omega)] at hst
        simp only [Option.some.injEq, Prod.mk.injEq, Sum.inl.injEq] at hst
        obtain ⟨rfl, rfl⟩ := hst
        refine ⟨d, h.reach, rfl, fun u => ?_, h.hist, h.nofull⟩
        have := hothers (d.th t) (by rw [hB]; exact ⟨hh, ho', Or.inr rfl⟩) u
        rwa [Function.update_eq_self] at this
      · rw [h.sh] at hst
        simp only [step, hs_get hh, List.getElem?_cons_zero] at hst
        cases hm : ConcMultiMap.step d.sh lb with
        | none => rw [hm] at hst; cases hst
        | some r =>
          obtain ⟨s1, r⟩ := r
          rw [hm] at hst
          cases r with
          | inl l1 =>
            simp only [Option.some.injEq, Prod.mk.injEq, Sum.inl.injEq] at hst
            obtain ⟨rfl, rfl⟩ := hst
            exact ⟨_, Reach.step h.reach (Step.internal d t _ s1 l1 hB hm), rfl,
              hothers _ ⟨hh, ho', Or.inr rfl⟩, h.hist, h.nofull⟩
          | inr r =>
            exfalso
            cases r with
            | bool b => simp at hst
            | full => exact step_not_full h hc hB ho' hm
  | ret t A s' r hth hst =>
    obtain ⟨o, l, st⟩ := A
    replace hst : step c.sh l = some (s', .inr r) := hst
    have hR := h.th t
    rw [hth] at hR
    cases hB : d.th t with
    | none => rw [hB] at hR; exact hR.elim
    | some B =>
      rw [hB] at hR
      obtain ⟨o', lb, sb⟩ := B
      obtain ⟨hh, ho', hl⟩ := hR
      rcases hl with ⟨rfl, rfl⟩ | rfl
      · rw [h.sh] at hst
        simp only [step, hs_get hh] at hst
        rw [if_neg (by omega)] at hst
        cases hst
      · rw [h.sh] at hst
        simp only [step, hs_get hh, List.getElem?_cons_zero] at hst
        cases hm : ConcMultiMap.step d.sh lb with
        | none => rw [hm] at hst; cases hst
        | some r1 =>
          obtain ⟨s1, r1⟩ := r1
          rw [hm] at hst
          cases r1 with
          | inl l1 => simp at hst
          | inr r1 =>
            have hr : r1 = r ∧ r ≠ .full ∧ s' = ⟨[⟨s1, 0⟩], 0, 0, 0, 0, List.replicate m (0, 0), junk⟩ := by
              cases r1 with
              | full => simp at hst
              | bool b =>
                simp only [Option.some.injEq, Prod.mk.injEq, Sum.inr.injEq] at hst
                exact ⟨hst.2, by rw [← hst.2]; simp, hst.1.symm⟩
            obtain ⟨rfl, hnf, rfl⟩ := hr
            refine ⟨_, Reach.step h.reach (Step.ret d t _ s1 r1 hB hm), rfl, fun u => ?_, ?_,
              fun u o' hu => ?_⟩
            · by_cases hu : u = t
              · subst hu
                simp only [Function.update_self]
                trivial
              · simp only [Function.update_of_ne hu]
                exact h.th u
            · simp only [List.map_append, h.hist, ho']
              rfl
            · rcases List.mem_append.1 hu with hu | hu
              · exact h.nofull u o' hu
              · simp only [List.mem_singleton, Ev.res.injEq] at hu
                exact hnf hu.2.2.symm

theorem step_hist {o : Obj Shared Loc Op MRet} {ok : Op → Prop}
    {c c' : Config n Shared Loc Op MRet} (hs : Step o ok c c') :
    c.hist.countP Ev.isInv ≤ c'.hist.countP Ev.isInv := by
  cases hs with
  | call => simp
  | internal => exact Nat.le_refl _
  | ret => simp

theorem reach_sim {junk : Nat → Nat} {a size p m : Nat} (hp : nextPow2 size = 2 ^ p)
    {c : Config n Shared Loc Op MRet}
    (h : Reach obj (fun o => o.k ≠ 0 ∧ o.h < m) (new junk a size m) c)
    (hc : c.hist.countP Ev.isInv ≤ 2 ^ p / 2) : ∃ d, Sim junk a p m c d := by
  refine Reach.induct (P := fun c => c.hist.countP Ev.isInv ≤ 2 ^ p / 2 → ∃ d, Sim junk a p m c d)
    (fun _ => ⟨_, sim_init junk a size p m hp⟩) ?_ h hc
  intro c c' _ ih hs hc'
  have hle := Nat.le_trans (step_hist hs) hc'
  obtain ⟨d, hd⟩ := ih hle
  exact sim_step hd hs hle

end GrowingMM
end Verif
