import Verif.Model.GrowingMap
import Verif.Lemmas.MigrateMap

/-!
# The growing map while it does not grow

As long as fewer different keys have been inserted than half the number of slots of the first table, no
insertion finds the table full, and the execution is one of the lock-free map.
-/
namespace Verif
namespace GrowingMap
open Conc
open ConcMap (MapOp MapRet)

variable {n : Nat}

/-- The same event of the lock-free map. -/
def evMap : Ev n Op MapRet → Ev n MapOp MapRet
  | .inv t o => .inv t (.insert o.k o.v)
  | .res t o r => .res t (.insert o.k o.v) r

/-- The state of a thread of the growing map and of the lock-free map. -/
def ThR (m : Nat) : Option (Active Loc Op) → Option (Active ConcMap.Loc MapOp) → Prop
  | none, none => True
  | some ⟨o, l, _⟩, some ⟨o', l', _⟩ => o.h < m ∧ o' = .insert o.k o.v ∧
      ((l = .ins0 o ∧ l' = .check o.k o.v) ∨ l = .tab o l')
  | _, _ => False

/-- The growing map has not grown and agrees with an execution of the lock-free map. -/
structure Sim (junk : Nat → Nat) (a p m : Nat) (c : Config n Shared Loc Op MapRet)
    (d : Config n ConcMap.Shared ConcMap.Loc MapOp MapRet) : Prop where
  reach : Reach (ConcMap.obj a) ConcMap.Ok
    ⟨List.replicate (2 ^ p) 0, List.replicate (2 ^ p) none, 0, a⟩ d
  sh : c.sh = ⟨[⟨d.sh, 0⟩], 0, 0, 0, 0, List.replicate m (0, 0), junk⟩
  th : ∀ t, ThR m (c.th t) (d.th t)
  hist : d.hist = c.hist.map evMap
  nofull : ∀ t o, Ev.res t o .full ∉ c.hist

/-- The keys of all calls of `insert`. -/
def calledKeys (h : List (Ev n Op MapRet)) : List Nat :=
  h.filterMap (fun e => match e with | .inv _ o => some o.k | .res _ _ _ => none)

theorem mem_calledKeys {h : List (Ev n Op MapRet)} {t : Fin n} {k v : Nat}
    (hm : Ev.inv t (MapOp.insert k v) ∈ h.map evMap) : k ∈ calledKeys h := by
  obtain ⟨e, he, hee⟩ := List.mem_map.1 hm
  cases e with
  | inv u o =>
    simp only [evMap, Ev.inv.injEq, MapOp.insert.injEq] at hee
    exact List.mem_filterMap.2 ⟨_, he, by simp [hee.2.1]⟩
  | res u o r => cases hee

/-- Every key in the table belongs to a call of `insert`. -/
theorem stored_called {p a : Nat} {d : Config n ConcMap.Shared ConcMap.Loc MapOp MapRet}
    (hi : ConcMap.MInv p a d) {k : Nat} (hk : k ∈ d.sh.keys) (h0 : k ≠ 0) :
    ∃ t v, Ev.inv t (.insert k v) ∈ d.hist := by
  obtain ⟨i, hi'⟩ := List.mem_iff_getElem?.1 hk
  have hil : i < d.sh.vals.length := by rw [hi.vlen]; exact (List.getElem?_eq_some_iff.1 hi').1
  cases hv : d.sh.vals[i] with
  | none =>
    obtain ⟨t, op, v, st, ht⟩ := hi.init i k hi' h0 (by rw [List.getElem?_eq_getElem hil, hv])
    have hl := hi.loc t _ ht
    have ho := hi.ops t _ ht
    unfold ConcMap.LocOk at hl
    simp only at hl ho
    rw [hl.1] at ho
    exact ⟨t, v, ho⟩
  | some v =>
    obtain ⟨k', h1, h2, t, h3⟩ := hi.vals i v (by rw [List.getElem?_eq_getElem hil, hv])
    rw [hi'] at h1
    injection h1 with h1
    subst h1
    exact ⟨t, v, h3⟩

/-- The number of items is at most the number of different keys of the calls. -/
theorem items_le_keys {p a : Nat} {d : Config n ConcMap.Shared ConcMap.Loc MapOp MapRet}
    (hi : ConcMap.MInv p a d) {h : List (Ev n Op MapRet)} (hh : d.hist = h.map evMap) :
    d.sh.items ≤ (calledKeys h).toFinset.card := by
  have h1 := hi.cnt
  have h2 : occ d.sh.keys = (d.sh.keys.filter (fun x => decide (x ≠ 0))).toFinset.card := by
    rw [List.toFinset_card_of_nodup]
    · unfold occ
      rw [List.countP_eq_length_filter]
      congr 2
      funext x
      by_cases hx : x = 0 <;> simp [hx]
    · have := hi.path.nodup
      convert this using 2
      funext x
      by_cases hx : x = 0 <;> simp [hx]
  have h3 : (d.sh.keys.filter (fun x => decide (x ≠ 0))).toFinset ⊆ (calledKeys h).toFinset := by
    intro k hk
    rw [List.mem_toFinset, List.mem_filter] at hk
    obtain ⟨t, v, hv⟩ := stored_called hi hk.1 (by simpa using hk.2)
    rw [hh] at hv
    exact List.mem_toFinset.2 (mem_calledKeys hv)
  have h4 := Finset.card_le_card h3
  omega

theorem sim_init (junk : Nat → Nat) (a size p m : Nat) (hp : nextPow2 size = 2 ^ p) :
    Sim junk a p m (Config.init n (new junk a size m)) (Config.init n
      ⟨List.replicate (2 ^ p) 0, List.replicate (2 ^ p) none, 0, a⟩) where
  reach := Reach.init
  sh := by simp [Config.init, new, ConcMap.new, hp]
  th := fun t => trivial
  hist := rfl
  nofull := by simp [Config.init]

theorem hs_get {m h : Nat} (hh : h < m) :
    (List.replicate m ((0 : Nat), (0 : Nat)))[h]? = some (0, 0) := by
  rw [List.getElem?_replicate, if_pos hh]

/-- An insertion does not find the table full. -/
theorem step_not_full {junk : Nat → Nat} {a p m : Nat} {c : Config n Shared Loc Op MapRet}
    {d : Config n ConcMap.Shared ConcMap.Loc MapOp MapRet} (h : Sim junk a p m c d)
    (hc : (calledKeys c.hist).toFinset.card < 2 ^ p / 2) {t : Fin n} {o' : MapOp} {lb : ConcMap.Loc}
    {sb k v : Nat} (hB : d.th t = some ⟨o', lb, sb⟩) (ho' : o' = .insert k v)
    {s1 : ConcMap.Shared} (hm : ConcMap.step d.sh lb = some (s1, .inr .full)) :
    False := by
  have hdi := ConcMap.reach_inv h.reach
  have hLB := hdi.loc t _ hB
  unfold ConcMap.LocOk at hLB
  cases lb with
  | check k v =>
    have h5 := items_le_keys hdi h.hist
    have h6 := hdi.len
    simp only [ConcMap.step] at hm
    rw [if_neg (by rw [h6]; omega)] at hm
    cases hm
  | probe k' v' idx =>
    simp only [ConcMap.step] at hm
    split at hm
    · cases hm
    · split at hm
      · simp at hm
      · split at hm <;> simp at hm
  | cas k' v' j =>
    simp only [ConcMap.step] at hm
    split at hm
    · cases hm
    · split at hm
      · simp at hm
      · split at hm <;> simp at hm
  | store k' v' j won =>
    simp only [ConcMap.step] at hm
    split at hm
    · cases won <;> simp at hm
    · cases hm
  | incr k' v' => simp [ConcMap.step] at hm
  | look k' idx =>
    rw [ho'] at hLB
    cases hLB.1
  | lookV k' i =>
    rw [ho'] at hLB
    cases hLB.1

theorem sim_step {junk : Nat → Nat} {a p m : Nat} {c c' : Config n Shared Loc Op MapRet}
    {d : Config n ConcMap.Shared ConcMap.Loc MapOp MapRet} (h : Sim junk a p m c d)
    (hs : Step obj (fun o => o.k ≠ 0 ∧ o.h < m) c c')
    (hc : (calledKeys c.hist).toFinset.card < 2 ^ p / 2) : ∃ d', Sim junk a p m c' d' := by
  have hdi := ConcMap.reach_inv h.reach
  cases hs with
  | call t op hidle hok =>
    have hdn : d.th t = none := by
      have := h.th t
      rw [hidle] at this
      cases hd : d.th t with
      | none => rfl
      | some B => rw [hd] at this; exact this.elim
    refine ⟨_, Reach.step h.reach (Step.call d t (.insert op.k op.v) hdn hok.1), h.sh,
      fun u => ?_, ?_, fun u o hu => h.nofull u o (by simpa using hu)⟩
    · by_cases hu : u = t
      · subst hu
        simp only [Function.update_self]
        exact ⟨hok.2, rfl, Or.inl ⟨rfl, rfl⟩⟩
      · simp only [Function.update_of_ne hu]
        exact h.th u
    · simp only [List.map_append, h.hist]
      rfl
  | internal t A s' l' hth hst =>
    obtain ⟨o, l, st⟩ := A
    replace hst : step c.sh l = some (s', .inl l') := hst
    have hR := h.th t
    rw [hth] at hR
    cases hB : d.th t with
    | none => rw [hB] at hR; exact hR.elim
    | some B =>
      rw [hB] at hR
      obtain ⟨o', lb, sb⟩ := B
      obtain ⟨hh, ho', hl⟩ := hR
      have hothers : ∀ (d' : Option (Active ConcMap.Loc MapOp)),
          ThR m (some ⟨o, l', st + 1⟩) d' → ∀ u,
          ThR m (Function.update c.th t (some ⟨o, l', st + 1⟩) u)
            (Function.update d.th t d' u) := by
        intro d' hd' u
        by_cases hu : u = t
        · subst hu
          simpa only [Function.update_self] using hd'
        · simp only [Function.update_of_ne hu]
          exact h.th u
      rcases hl with ⟨rfl, rfl⟩ | rfl
      · rw [h.sh] at hst
        simp only [step, hs_get hh] at hst
        rw [if_neg (by omega)] at hst
        simp only [Option.some.injEq, Prod.mk.injEq, Sum.inl.injEq] at hst
        obtain ⟨rfl, rfl⟩ := hst
        refine ⟨d, h.reach, rfl, fun u => ?_, h.hist, h.nofull⟩
        have := hothers (d.th t) (by rw [hB]; exact ⟨hh, ho', Or.inr rfl⟩) u
        rwa [Function.update_eq_self] at this
      · rw [h.sh] at hst
        simp only [step, hs_get hh, List.getElem?_cons_zero] at hst
        cases hm : ConcMap.step d.sh lb with
        | none => rw [hm] at hst; cases hst
        | some r =>
          obtain ⟨s1, r⟩ := r
          rw [hm] at hst
          cases r with
          | inl l1 =>
            simp only [Option.some.injEq, Prod.mk.injEq, Sum.inl.injEq] at hst
            obtain ⟨rfl, rfl⟩ := hst
            exact ⟨_, Reach.step h.reach (Step.internal d t _ s1 l1 hB hm), rfl,
              hothers _ ⟨hh, ho', Or.inr rfl⟩, h.hist, h.nofull⟩
          | inr r =>
            exfalso
            cases r with
            | bool b => simp at hst
            | val v => simp at hst
            | full => exact step_not_full h hc hB ho' hm
  | ret t A s' r hth hst =>
    obtain ⟨o, l, st⟩ := A
    replace hst : step c.sh l = some (s', .inr r) := hst
    have hR := h.th t
    rw [hth] at hR
    cases hB : d.th t with
    | none => rw [hB] at hR; exact hR.elim
    | some B =>
      rw [hB] at hR
      obtain ⟨o', lb, sb⟩ := B
      obtain ⟨hh, ho', hl⟩ := hR
      rcases hl with ⟨rfl, rfl⟩ | rfl
      · rw [h.sh] at hst
        simp only [step, hs_get hh] at hst
        rw [if_neg (by omega)] at hst
        cases hst
      · rw [h.sh] at hst
        simp only [step, hs_get hh, List.getElem?_cons_zero] at hst
        cases hm : ConcMap.step d.sh lb with
        | none => rw [hm] at hst; cases hst
        | some r1 =>
          obtain ⟨s1, r1⟩ := r1
          rw [hm] at hst
          cases r1 with
          | inl l1 => simp at hst
          | inr r1 =>
            have hr : r1 = r ∧ r ≠ .full ∧ s' = ⟨[⟨s1, 0⟩], 0, 0, 0, 0, List.replicate m (0, 0), junk⟩ := by
              cases r1 with
              | full => simp at hst
              | bool b =>
                simp only [Option.some.injEq, Prod.mk.injEq, Sum.inr.injEq] at hst
                exact ⟨hst.2, by rw [← hst.2]; simp, hst.1.symm⟩
              | val b =>
                simp only [Option.some.injEq, Prod.mk.injEq, Sum.inr.injEq] at hst
                exact ⟨hst.2, by rw [← hst.2]; simp, hst.1.symm⟩
            obtain ⟨rfl, hnf, rfl⟩ := hr
            refine ⟨_, Reach.step h.reach (Step.ret d t _ s1 r1 hB hm), rfl, fun u => ?_, ?_,
              fun u o' hu => ?_⟩
            · by_cases hu : u = t
              · subst hu
                simp only [Function.update_self]
                trivial
              · simp only [Function.update_of_ne hu]
                exact h.th u
            · simp only [List.map_append, h.hist, ho']
              rfl
            · rcases List.mem_append.1 hu with hu | hu
              · exact h.nofull u o' hu
              · simp only [List.mem_singleton, Ev.res.injEq] at hu
                exact hnf hu.2.2.symm

theorem step_hist {o : Obj Shared Loc Op MapRet} {ok : Op → Prop}
    {c c' : Config n Shared Loc Op MapRet} (hs : Step o ok c c') :
    (calledKeys c.hist).toFinset.card ≤ (calledKeys c'.hist).toFinset.card := by
  have key : ∀ e : List (Ev n Op MapRet), (calledKeys c.hist).toFinset.card ≤
      (calledKeys (c.hist ++ e)).toFinset.card := by
    intro e
    apply Finset.card_le_card
    intro k hk
    simp only [calledKeys, List.filterMap_append, List.mem_toFinset, List.mem_append] at hk ⊢
    exact Or.inl hk
  cases hs with
  | call => exact key _
  | internal => exact Nat.le_refl _
  | ret => exact key _

theorem reach_sim {junk : Nat → Nat} {a size p m : Nat} (hp : nextPow2 size = 2 ^ p)
    {c : Config n Shared Loc Op MapRet}
    (h : Reach obj (fun o => o.k ≠ 0 ∧ o.h < m) (new junk a size m) c)
    (hc : (calledKeys c.hist).toFinset.card < 2 ^ p / 2) : ∃ d, Sim junk a p m c d := by
  refine Reach.induct (P := fun c => (calledKeys c.hist).toFinset.card < 2 ^ p / 2 → ∃ d, Sim junk a p m c d)
    (fun _ => ⟨_, sim_init junk a size p m hp⟩) ?_ h hc
  intro c c' _ ih hs hc'
  have hle := Nat.lt_of_le_of_lt (step_hist hs) hc'
  obtain ⟨d, hd⟩ := ih hle
  exact sim_step hd hs hle

/-- What an insertion into a table returns. -/
def InsLoc : ConcMap.Loc → Prop
  | .look _ _ => False
  | .lookV _ _ => False
  | _ => True

/-- An insertion goes on or returns something else than a value. -/
def OutIns {L : Type} (p : L → Prop) : L ⊕ MapRet → Prop
  | .inl l => p l
  | .inr r => ∀ v, r ≠ .val v

theorem ins_step {s s' : ConcMap.Shared} {l : ConcMap.Loc} {out : ConcMap.Loc ⊕ MapRet}
    (hl : InsLoc l) (h : ConcMap.step s l = some (s', out)) :
    OutIns InsLoc out := by
  cases l with
  | look => exact hl.elim
  | lookV => exact hl.elim
  | _ =>
    simp only [ConcMap.step] at h
    repeat' split at h
    all_goals first
      | (cases h; done)
      | (simp only [Option.some.injEq, Prod.mk.injEq] at h
         obtain ⟨_, rfl⟩ := h
         first | (simp [OutIns, InsLoc]; done) | (split <;> simp [OutIns, InsLoc]))

/-- A thread in a table executes an insertion. -/
def LocIns : Loc → Prop
  | .tab _ l => InsLoc l
  | _ => True

theorem step_ins {s s' : Shared} {l : Loc} {out : Loc ⊕ MapRet} (hl : LocIns l)
    (h : step s l = some (s', out)) :
    OutIns LocIns out := by
  cases l with
  | tab o lb =>
    simp only [step] at h
    split at h
    · cases h
    · split at h
      · cases h
      · split at h
        · cases h
        · rename_i t' out' hm
          have := ins_step hl hm
          simp only [Option.some.injEq, Prod.mk.injEq] at h
          obtain ⟨_, rfl⟩ := h
          cases out' with
          | inl l' => exact this
          | inr r => cases r <;> simp_all [OutIns, LocIns]
  | _ =>
    simp only [step, afterGet] at h
    repeat' split at h
    all_goals first
      | (cases h; done)
      | (simp only [Option.some.injEq, Prod.mk.injEq] at h
         obtain ⟨_, rfl⟩ := h
         first | (simp [OutIns, LocIns, InsLoc]; done) | (repeat' split) <;> simp [OutIns, LocIns, InsLoc])

/-- An insertion never returns a value. -/
theorem ret_bool {junk : Nat → Nat} {a size m : Nat} {ok : Op → Prop}
    {c : Config n Shared Loc Op MapRet} (h : Reach obj ok (new junk a size m) c) :
    ∀ t o v, Ev.res t o (.val v) ∉ c.hist := by
  refine (Reach.induct (P := fun c => (∀ t A, c.th t = some A → LocIns A.loc) ∧
    ∀ t o v, Ev.res t o (MapRet.val v) ∉ c.hist) ?_ ?_ h).2
  · exact ⟨fun t A h => by simp [Config.init] at h, by simp [Config.init]⟩
  · rintro c c' _ ⟨h1, h2⟩ hs
    cases hs with
    | call t op hidle hok =>
      refine ⟨fun u A hu => ?_, fun u o v hm => h2 u o v (by simpa using hm)⟩
      rcases ConcMap.upd_cases hu with ⟨_, hx⟩ | ⟨_, hx⟩
      · injection hx with hx
        subst hx
        trivial
      · exact h1 u A hx
    | internal t A s' l' hth hst =>
      refine ⟨fun u B hu => ?_, h2⟩
      rcases ConcMap.upd_cases hu with ⟨_, hx⟩ | ⟨_, hx⟩
      · injection hx with hx
        subst hx
        exact step_ins (h1 t A hth) hst
      · exact h1 u B hx
    | ret t A s' r hth hst =>
      refine ⟨fun u B hu => ?_, fun u o v hm => ?_⟩
      · rcases ConcMap.upd_cases hu with ⟨_, hx⟩ | ⟨_, hx⟩
        · cases hx
        · exact h1 u B hx
      · rcases List.mem_append.1 hm with hm | hm
        · exact h2 u o v hm
        · simp only [List.mem_singleton, Ev.res.injEq] at hm
          exact step_ins (h1 t A hth) hst v hm.2.2.symm

/-- Every call has returned or is still running. -/
theorem returned' {s : Shared} {ok : Op → Prop} {c : Config n Shared Loc Op MapRet}
    (h : Reach obj ok s c) : ∀ t o, Ev.inv t o ∈ c.hist →
      (∃ r, Ev.res t o r ∈ c.hist) ∨ ∃ A, c.th t = some A ∧ A.op = o := by
  refine Reach.induct (P := fun c => ∀ t o, Ev.inv t o ∈ c.hist →
      (∃ r, Ev.res t o r ∈ c.hist) ∨ ∃ A, c.th t = some A ∧ A.op = o) (by simp [Config.init]) ?_ h
  intro c c' _ ih hs u o hm
  cases hs with
  | call t op hidle hok =>
    rcases List.mem_append.1 hm with hm | hm
    · rcases ih u o hm with ⟨r, hr⟩ | ⟨A, hA, ho⟩
      · exact Or.inl ⟨r, List.mem_append_left _ hr⟩
      · have : u ≠ t := by rintro rfl; rw [hidle] at hA; cases hA
        exact Or.inr ⟨A, by simp only [Function.update_of_ne this]; exact hA, ho⟩
    · simp only [List.mem_singleton, Ev.inv.injEq] at hm
      obtain ⟨rfl, rfl⟩ := hm
      exact Or.inr ⟨_, Function.update_self .., rfl⟩
  | internal t A s' l' hth hst =>
    rcases ih u o hm with hr | ⟨B, hB, ho⟩
    · exact Or.inl hr
    · by_cases hu : u = t
      · subst hu
        rw [hth] at hB
        injection hB with hB
        subst hB
        exact Or.inr ⟨_, Function.update_self .., ho⟩
      · exact Or.inr ⟨B, by simp only [Function.update_of_ne hu]; exact hB, ho⟩
  | ret t A s' r hth hst =>
    have hm' : Ev.inv u o ∈ c.hist := by simpa using hm
    rcases ih u o hm' with ⟨r', hr⟩ | ⟨B, hB, ho⟩
    · exact Or.inl ⟨r', List.mem_append_left _ hr⟩
    · by_cases hu : u = t
      · subst hu
        rw [hth] at hB
        injection hB with hB
        subst hB
        exact Or.inl ⟨r, List.mem_append_right _ (by rw [ho]; exact List.mem_singleton_self _)⟩
      · exact Or.inr ⟨B, by simp only [Function.update_of_ne hu]; exact hB, ho⟩

theorem returned {s : Shared} {ok : Op → Prop} {c : Config n Shared Loc Op MapRet}
    (h : Reach obj ok s c) (hq : c.quiescent) {t : Fin n} {o : Op} (hm : Ev.inv t o ∈ c.hist) :
    ∃ r, Ev.res t o r ∈ c.hist := by
  rcases returned' h t o hm with hr | ⟨A, hA, _⟩
  · exact hr
  · rw [hq t] at hA
    cases hA

end GrowingMap
end Verif
