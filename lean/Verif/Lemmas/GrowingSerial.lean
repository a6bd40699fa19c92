import Verif.Lemmas.GrowingStep

/-!
# Executions without overlapping insertions, or without growth, are timely
-/
namespace Verif
namespace Growing
open Conc
open ConcMap (upd_cases)

variable {n : Nat}

/-- Inside an insertion, the table is the current one. -/
def SL (s : Shared) : Loc → Prop
  | .gt2 h c => (contKey c).1 = true → ∀ le lt, s.hs[h]? = some (le, lt) → le = s.er
  | .tab h l => (setKey l).1 = true → ∀ le lt, s.hs[h]? = some (le, lt) → lt = s.er
  | .g1 _ c => (contKey c).1 = true
  | .g2 _ _ c => (contKey c).1 = true
  | .mig _ _ _ c => (contKey c).1 = true
  | .g8 _ _ c => (contKey c).1 = true
  | .g9 _ _ c => (contKey c).1 = true
  | _ => True

theorem step_er_hs {s s' : Shared} {l : Loc} {out : Loc ⊕ ConcSet.SetRet}
    (h : step s l = some (s', out)) :
    (s'.er = s.er ∨ ∃ y w cc, l = .g9 y w cc) ∧ ∀ z, z ≠ locH l → s'.hs[z]? = s.hs[z]? := by
  cases l <;> simp only [step] at h
  all_goals repeat' (first | (split at h) | (cases h; done))
  all_goals first
    | (simp only [Option.some.injEq, Prod.mk.injEq] at h
       obtain ⟨rfl, _⟩ := h
       refine ⟨?_, fun z hz => ?_⟩
       · first | exact Or.inl rfl | exact Or.inr ⟨_, _, _, rfl⟩
       · first | rfl | exact List.getElem?_set_ne (fun hx => hz hx.symm))
    | cases h

theorem SL_own {a : Nat} {c : Config n Shared Loc Op ConcSet.SetRet} (h : CI a c) {t : Fin n}
    {A : Active Loc Op} (hA : c.th t = some A) (hS : SL c.sh A.loc) {s' : Shared} {l' : Loc}
    (hst : step c.sh A.loc = some (s', .inl l')) : SL s' l' := by
  cases hl : A.loc with
  | ins0 y k =>
    rw [hl] at hst
    simp only [step] at hst
    split at hst
    · cases hst
    rename_i le lt hy
    have hsl := h.sync_le hA (by rw [hl]; rfl) (by rw [hl]; exact hy)
    split at hst <;> simp only [Option.some.injEq, Prod.mk.injEq, Sum.inl.injEq] at hst <;>
      obtain ⟨rfl, rfl⟩ := hst
    · trivial
    · intro _ le' lt' hx
      rw [hy] at hx
      simp only [Option.some.injEq, Prod.mk.injEq] at hx
      have := h.g.er_ew
      omega
  | con0 y k =>
    rw [hl] at hst
    simp only [step] at hst
    split at hst
    · cases hst
    split at hst <;> simp only [Option.some.injEq, Prod.mk.injEq, Sum.inl.injEq] at hst <;>
      obtain ⟨rfl, rfl⟩ := hst
    · trivial
    · intro hx; cases hx
  | gt1 y cc =>
    rw [hl] at hst
    simp only [step] at hst
    split at hst
    · cases hst
    simp only [Option.some.injEq, Prod.mk.injEq, Sum.inl.injEq] at hst
    obtain ⟨rfl, rfl⟩ := hst
    intro _ le' lt' hx
    have := getElem?_set_self' hx
    simp only [Prod.mk.injEq] at this
    exact this.1
  | gt2 y cc =>
    rw [hl] at hst hS
    simp only [step] at hst
    split at hst
    · cases hst
    rename_i le lt hy
    simp only [Option.some.injEq, Prod.mk.injEq] at hst
    obtain ⟨rfl, hst⟩ := hst
    have hget : ∀ le' lt', (c.sh.hs.set y (le, c.sh.tr))[y]? = some (le', lt') →
        lt' = c.sh.tr := by
      intro le' lt' hx
      have := getElem?_set_self' hx
      simp only [Prod.mk.injEq] at this
      exact this.2
    split at hst
    · injection hst with hst
      subst hst
      trivial
    · rename_i heq
      simp only [ne_eq, not_not] at heq
      injection hst with hst
      subst hst
      cases cc with
      | check k te =>
        simp only [afterGet]
        split
        · rfl
        · intro _ le' lt' hx
          rw [hget le' lt' hx, heq]
          exact hS rfl le lt hy
      | ins k =>
        intro _ le' lt' hx
        rw [hget le' lt' hx, heq]
        exact hS rfl le lt hy
      | restart k => trivial
      | con k => intro hx; cases hx
  | tab y l =>
    rw [hl] at hst hS
    simp only [step] at hst
    split at hst
    · cases hst
    rename_i le lt hy
    split at hst
    · cases hst
    rename_i tb htb
    split at hst
    · cases hst
    rename_i t' out hs1
    have hset := setStep hs1
    simp only [Option.some.injEq, Prod.mk.injEq] at hst
    obtain ⟨rfl, hst⟩ := hst
    cases out with
    | inl l1 =>
      injection hst with hst
      subst hst
      intro hx
      rw [hset.2.1 l1 rfl] at hx
      exact hS hx
    | inr r =>
      cases r with
      | bool b => simp at hst
      | full =>
        rcases hset.2.2.1 _ rfl rfl with ⟨k, rfl⟩ | ⟨k, i, cols, rfl⟩
        · injection hst with hst
          subst hst
          rfl
        · injection hst with hst
          subst hst
          rfl
  | g1 y cc =>
    rw [hl] at hst hS
    simp only [step] at hst
    repeat' (first | (split at hst) | (cases hst; done))
    all_goals
      simp only [Option.some.injEq, Prod.mk.injEq, Sum.inl.injEq] at hst
      obtain ⟨_, rfl⟩ := hst
      exact hS
  | g2 y w cc =>
    rw [hl] at hst hS
    simp only [step] at hst
    split at hst
    · cases hst
    simp only [Option.some.injEq, Prod.mk.injEq, Sum.inl.injEq] at hst
    obtain ⟨_, rfl⟩ := hst
    exact hS
  | mig y w m cc =>
    rw [hl] at hst hS
    simp only [step] at hst
    split at hst
    · cases hst
    split at hst
    · split at hst
      · cases hst
      · simp only [Option.some.injEq, Prod.mk.injEq] at hst
        obtain ⟨_, hst⟩ := hst
        split at hst
        · injection hst with hst
          subst hst
          exact hS
        · injection hst with hst
          subst hst
          exact hS
    · cases hst
  | g8 y w cc =>
    rw [hl] at hst hS
    simp only [step] at hst
    simp only [Option.some.injEq, Prod.mk.injEq, Sum.inl.injEq] at hst
    obtain ⟨_, rfl⟩ := hst
    exact hS
  | g9 y w cc =>
    rw [hl] at hst hS
    simp only [step] at hst
    split at hst
    · cases hst
    simp only [Option.some.injEq, Prod.mk.injEq, Sum.inl.injEq] at hst
    obtain ⟨_, rfl⟩ := hst
    trivial

theorem isInsert {op : Op} (h : (opKey op).1 = true) : ∃ i k, op = .insert i k := by
  cases op with
  | insert i k => exact ⟨i, k, rfl⟩
  | contains i k => cases h

theorem CI.isIns {a : Nat} {c : Config n Shared Loc Op ConcSet.SetRet} (h : CI a c) {t : Fin n}
    {A : Active Loc Op} (hA : c.th t = some A) (hk : (locKey A.loc).1 = true) :
    ∃ i k, A.op = .insert i k := isInsert (by rw [← (h.lk t A hA).1]; exact hk)

/-- Steps of other threads do not disturb an insertion, if insertions do not overlap. -/
theorem SL_step {a : Nat} {c c' : Config n Shared Loc Op ConcSet.SetRet} (h : CI a c)
    (hS : ∀ t A, c.th t = some A → SL c.sh A.loc) (hser : SerialInserts c)
    (hs : Step obj OkKey c c') : ∀ t A, c'.th t = some A → SL c'.sh A.loc := by
  have other : ∀ (t : Fin n) (A : Active Loc Op) (s' : Shared) (out : Loc ⊕ ConcSet.SetRet),
      c.th t = some A → step c.sh A.loc = some (s', out) → ∀ u B, u ≠ t → c.th u = some B →
      SL s' B.loc := by
    intro t A s' out hA hst u B hut hu
    obtain ⟨h1, h2⟩ := step_er_hs hst
    have hH : locH B.loc ≠ locH A.loc := by
      rw [h.lh u B hu, h.lh t A hA]
      exact fun hx => hut (h.ex u t B A hu hA hx)
    have hhs := h2 _ hH
    have hB := hS u B hu
    have her : (locKey B.loc).1 = true → s'.er = c.sh.er := by
      intro hk
      rcases h1 with h1 | ⟨y, w, cc, h1⟩
      · exact h1
      · exfalso
        have hA9 := hS t A hA
        obtain ⟨i, k, hi⟩ := h.isIns hu hk
        obtain ⟨j, l, hj⟩ := h.isIns hA (by rw [h1] at hA9 ⊢; exact hA9)
        exact hut (hser u t B A i j k l hu hA hi hj)
    cases hl : B.loc <;> rw [hl] at hB hhs her <;> simp only [SL, locH, locKey] at * <;>
      first | exact hB | trivial | skip
    · intro hk le lt hx
      rw [her hk]
      exact hB hk le lt (hhs ▸ hx)
    · intro hk le lt hx
      rw [her hk]
      exact hB hk le lt (hhs ▸ hx)
  cases hs with
  | call t op hidle hok =>
    intro u B hu
    replace hu := upd_cases hu
    rcases hu with ⟨rfl, hu⟩ | ⟨hut, hu⟩
    · injection hu with hu
      subst hu
      cases op <;> trivial
    · exact hS u B hu
  | internal t A s' l' hA hst =>
    intro u B hu
    replace hu := upd_cases hu
    rcases hu with ⟨rfl, hu⟩ | ⟨hut, hu⟩
    · injection hu with hu
      subst hu
      exact SL_own h hA (hS u A hA) hst
    · exact other t A s' _ hA hst u B hut hu
  | ret t A s' r hA hst =>
    intro u B hu
    replace hu := upd_cases hu
    rcases hu with ⟨rfl, hu⟩ | ⟨hut, hu⟩
    · cases hu
    · exact other t A s' _ hA hst u B hut hu

/-- If insertions do not overlap, no write is late. -/
theorem not_late {a : Nat} {c : Config n Shared Loc Op ConcSet.SetRet} (h : CI a c)
    (hS : ∀ t A, c.th t = some A → SL c.sh A.loc) (hser : SerialInserts c) (t : Fin n) :
    ¬ Late c t := by
  rintro ⟨A, y, k, i, cols, le, lt, tb, hA, hl, hy, htb, hi0, hic⟩
  have hSA := hS t A hA
  rw [hl] at hSA
  have hlt := hSA rfl le lt hy
  have hins := h.isIns hA (by rw [hl]; rfl)
  obtain ⟨i1, k1, hop⟩ := hins
  have hcp : cp c.sh c.sh.er ≠ 0 := by
    rw [← hlt, cp_some htb]
    omega
  have h1 := h.g.er_lt
  have h2 := h.g.last
  have h3 : c.sh.tabs.length = c.sh.er + 2 := by
    have h4 : c.sh.tabs.length ≠ c.sh.er + 1 := fun hx => hcp (h.g.cpl hx)
    omega
  obtain ⟨u, B, hu, hB⟩ := h.gro h3
  have hSB := hS u B hu
  have hkB : (locKey B.loc).1 = true := by
    cases hlB : B.loc <;> rw [hlB] at hB hSB <;> first | exact hSB | exact hB.elim
  obtain ⟨i2, k2, hop2⟩ := h.isIns hu hkB
  have : u = t := hser u t B A i2 i1 k2 k1 hu hA hop2 hop
  subst this
  rw [hA] at hu
  injection hu with hu
  subst hu
  rw [hl] at hB
  exact hB

theorem serial_timely {a size m : Nat} (hs : 0 < size) {c : Config n Shared Loc Op ConcSet.SetRet}
    (h : ReachSerial (new a size m) c) : ReachTimely (new a size m) c := by
  have key : ReachTimely (new a size m) c ∧ (∀ t A, c.th t = some A → SL c.sh A.loc) ∧
      SerialInserts c := by
    induction h with
    | init =>
      refine ⟨.init, ?_, ?_⟩
      · intro t A hA
        cases hA
      · intro t u A B i j k l hA
        cases hA
    | step _ hst hex hser ih =>
      obtain ⟨ih1, ih2, ih3⟩ := ih
      have hCI := timely_CI hs ih1
      exact ⟨.step ih1 hst hex (fun t ht => absurd ht (not_late hCI ih2 ih3 t)),
        SL_step hCI ih2 ih3 hst, hser⟩
  exact key.1

theorem step_len {s s' : Shared} {l : Loc} {out : Loc ⊕ ConcSet.SetRet}
    (h : step s l = some (s', out)) : s.tabs.length ≤ s'.tabs.length := by
  cases l <;> simp only [step] at h
  all_goals repeat' (first | (split at h) | (cases h; done))
  all_goals first
    | (simp only [Option.some.injEq, Prod.mk.injEq] at h
       obtain ⟨rfl, _⟩ := h
       simp only [List.length_set, List.length_append, List.length_cons, List.length_nil]
       first | done | omega)
    | (cases h; exact Nat.le_refl _)
    | cases h

theorem Step_len {c c' : Config n Shared Loc Op ConcSet.SetRet} (hs : Step obj OkKey c c') :
    c.sh.tabs.length ≤ c'.sh.tabs.length := by
  cases hs with
  | call => exact Nat.le_refl _
  | internal t A s' l' hA hst => exact step_len hst
  | ret t A s' r hA hst => exact step_len hst

theorem nogrow_timely {a size m : Nat} (hs : 0 < size) {c : Config n Shared Loc Op ConcSet.SetRet}
    (h : ReachExclusive (new a size m) c) (h1 : c.sh.tabs.length = 1) :
    ReachTimely (new a size m) c := by
  induction h with
  | init => exact .init
  | @step c c' hr hst hex ih =>
    have hmono := Step_len hst
    have hlen : c.sh.tabs.length = 1 := by
      rcases Nat.lt_or_ge 0 c.sh.tabs.length with h0 | h0
      · omega
      · exfalso
        have : ∀ c : Config n Shared Loc Op ConcSet.SetRet, ReachExclusive (new a size m) c →
            0 < c.sh.tabs.length := by
          intro c hc
          induction hc with
          | init => simp [Config.init, new]
          | step _ hst _ ih => exact Nat.lt_of_lt_of_le ih (Step_len hst)
        have := this c hr
        omega
    have ht := ih hlen
    have hCI := timely_CI hs ht
    refine .step ht hst hex (fun t hl => ?_)
    exfalso
    obtain ⟨A, y, k, i, cols, le, lt, tb, hA, hl, hy, htb, hi0, hic⟩ := hl
    obtain ⟨hltl, _⟩ := List.getElem?_eq_some_iff.1 htb
    have her := hCI.g.er_lt
    have h0 : c.sh.er = 0 := by omega
    have hlt : lt = c.sh.er := by omega
    have := hCI.g.cpl (by omega)
    rw [← hlt, cp_some htb] at this
    omega

/-! executable schedules -/

/-- Whether a write is late. -/
def lateB (c : Config n Shared Loc Op ConcSet.SetRet) (t : Fin n) : Bool :=
  match c.th t with
  | some A => match A.loc with
    | .tab h (.cas _ i _) => match c.sh.hs[h]? with
      | some p => match c.sh.tabs[p.2]? with
        | some tb => decide (tb.t.arr[i]? = some 0 ∧ i < tb.copy)
        | none => false
      | none => false
    | _ => false
  | none => false

def exclB (c : Config n Shared Loc Op ConcSet.SetRet) : Bool :=
  decide (∀ t u : Fin n, t = u ∨ (match c.th t, c.th u with
    | some A, some B => decide (A.op.handle ≠ B.op.handle)
    | _, _ => true) = true)

theorem exclusive_of {c : Config n Shared Loc Op ConcSet.SetRet} (h : exclB c = true) : Exclusive c := by
  intro t u A B hA hB hx
  simp only [exclB, decide_eq_true_eq] at h
  rcases h t u with h | h
  · exact h
  · rw [hA, hB] at h
    simp at h
    exact absurd hx h

theorem lateB_of {c : Config n Shared Loc Op ConcSet.SetRet} {t : Fin n} (h : Late c t) :
    lateB c t = true := by
  obtain ⟨A, y, k, i, cols, le, lt, tb, hA, hl, hy, htb, hi0, hic⟩ := h
  simp [lateB, hA, hl, hy, htb, hi0, hic]

/-- No late write. -/
def actOk (c : Config n Shared Loc Op ConcSet.SetRet) : Act n Op → Bool
  | .call _ _ => true
  | .run t => !lateB c t

/-- Perform a list of actions, checking the conditions of timely executions. -/
def execT : Config n Shared Loc Op ConcSet.SetRet → List (Act n Op) →
    Option (Config n Shared Loc Op ConcSet.SetRet)
  | c, [] => some c
  | c, x :: xs =>
    if actOk c x = true then
      match exec1 obj (fun op => decide (op.key ≠ 0)) c x with
      | none => none
      | some c' => if exclB c' then execT c' xs else none
    else none

theorem step_ok {c c' : Config n Shared Loc Op ConcSet.SetRet}
    (h : Step obj (fun op => decide (op.key ≠ 0) = true) c c') : Step obj OkKey c c' := by
  cases h with
  | call t op h1 h2 => exact .call _ t op h1 (by simpa [OkKey] using h2)
  | internal t a s' l' h1 h2 => exact .internal _ t a s' l' h1 h2
  | ret t a s' r h1 h2 => exact .ret _ t a s' r h1 h2

theorem execT_reach {s0 : Shared} : ∀ {l : List (Act n Op)} {c c' : Config n Shared Loc Op ConcSet.SetRet},
    ReachTimely s0 c → execT c l = some c' → ReachTimely s0 c'
  | [], c, c', h, he => by
    injection he with he
    subst he
    exact h
  | x :: xs, c, c', h, he => by
    unfold execT at he
    split at he
    · rename_i hx
      split at he
      · cases he
      · rename_i c1 h1
        split at he
        · rename_i hex
          refine execT_reach (.step h (step_ok (exec1_step h1)) (exclusive_of hex) (fun t ht => ?_)) he
          have hl := lateB_of ht
          obtain ⟨A, y, k, i, cols, le, lt, tb, hA, _⟩ := ht
          cases x with
          | call u op =>
            simp only [exec1] at h1
            split at h1
            · rename_i hu
              split at h1
              · injection h1 with h1
                subst h1
                have : t ≠ u := by
                  rintro rfl
                  rw [hA] at hu; cases hu
                simp only [Function.update_of_ne this]
              · cases h1
            · cases h1
          | run u =>
            have htu : t ≠ u := by
              rintro rfl
              simp only [actOk] at hx
              rw [hl] at hx
              cases hx
            simp only [exec1] at h1
            repeat' (first | (split at h1) | (cases h1; done))
            all_goals
              injection h1 with h1
              subst h1
              simp only [Function.update_of_ne htu]
        · cases he
    · cases he

theorem execT_hist {s0 : Shared} {l : List (Act n Op)} {h : List (Ev n Op ConcSet.SetRet)}
    {m : Nat} (he : (execT (Config.init n s0) l).map (fun c => (c.hist, c.sh.tabs.length)) =
      some (h, m)) : ∃ c, ReachTimely s0 c ∧ c.hist = h ∧ c.sh.tabs.length = m := by
  cases hc : execT (Config.init n s0) l with
  | none => rw [hc] at he; cases he
  | some c =>
    rw [hc] at he
    simp only [Option.map_some, Option.some.injEq, Prod.mk.injEq] at he
    exact ⟨c, execT_reach .init hc, he.1, he.2⟩

/-- Perform a list of actions, with a check of every configuration on the way. -/
def execC (chk : Config n Shared Loc Op ConcSet.SetRet → Bool) :
    Config n Shared Loc Op ConcSet.SetRet → List (Act n Op) →
    Option (Config n Shared Loc Op ConcSet.SetRet)
  | c, [] => some c
  | c, x :: xs =>
    match exec1 obj (fun op => decide (op.key ≠ 0)) c x with
    | none => none
    | some c' => if chk c' = true then execC chk c' xs else none

theorem execC_ind {chk : Config n Shared Loc Op ConcSet.SetRet → Bool}
    {P : Config n Shared Loc Op ConcSet.SetRet → Prop}
    (hP : ∀ c c', P c → Step obj OkKey c c' → chk c' = true → P c') :
    ∀ {l : List (Act n Op)} {c c' : Config n Shared Loc Op ConcSet.SetRet}, P c →
      execC chk c l = some c' → P c'
  | [], c, c', h, he => by
    injection he with he
    subst he
    exact h
  | x :: xs, c, c', h, he => by
    unfold execC at he
    split at he
    · cases he
    · rename_i c1 h1
      split at he
      · rename_i hc
        exact execC_ind hP (hP c c1 h (step_ok (exec1_step h1)) hc) he
      · cases he

/-- Whether the operation is an insertion. -/
def isIns : Op → Bool
  | .insert _ _ => true
  | .contains _ _ => false

def serB (c : Config n Shared Loc Op ConcSet.SetRet) : Bool :=
  decide (∀ t u : Fin n, t = u ∨ (match c.th t, c.th u with
    | some A, some B => !(isIns A.op && isIns B.op)
    | _, _ => true) = true)

theorem serial_of {c : Config n Shared Loc Op ConcSet.SetRet} (h : serB c = true) :
    SerialInserts c := by
  intro t u A B i j k l hA hB hi hj
  simp only [serB, decide_eq_true_eq] at h
  rcases h t u with h | h
  · exact h
  · rw [hA, hB] at h
    simp [hi, hj, isIns] at h

theorem execS_hist {s0 : Shared} {l : List (Act n Op)} {h : List (Ev n Op ConcSet.SetRet)} {m : Nat}
    (he : (execC (fun c => exclB c && serB c) (Config.init n s0) l).map
      (fun c => (c.hist, c.sh.tabs.length)) = some (h, m)) :
    ∃ c, ReachSerial s0 c ∧ c.hist = h ∧ c.sh.tabs.length = m := by
  cases hc : execC (fun c => exclB c && serB c) (Config.init n s0) l with
  | none => rw [hc] at he; cases he
  | some c =>
    rw [hc] at he
    simp only [Option.map_some, Option.some.injEq, Prod.mk.injEq] at he
    refine ⟨c, execC_ind (P := ReachSerial s0) (fun c c' h1 h2 h3 => ?_) .init hc, he.1, he.2⟩
    simp only [Bool.and_eq_true] at h3
    exact .step h1 h2 (exclusive_of h3.1) (serial_of h3.2)

theorem execE_hist {s0 : Shared} {l : List (Act n Op)} {h : List (Ev n Op ConcSet.SetRet)} {m : Nat}
    (he : (execC exclB (Config.init n s0) l).map
      (fun c => (c.hist, c.sh.tabs.length)) = some (h, m)) :
    ∃ c, ReachExclusive s0 c ∧ c.hist = h ∧ c.sh.tabs.length = m := by
  cases hc : execC exclB (Config.init n s0) l with
  | none => rw [hc] at he; cases he
  | some c =>
    rw [hc] at he
    simp only [Option.map_some, Option.some.injEq, Prod.mk.injEq] at he
    exact ⟨c, execC_ind (P := ReachExclusive s0)
      (fun c c' h1 h2 h3 => .step h1 h2 (exclusive_of h3)) .init hc, he.1, he.2⟩

end Growing
end Verif
