import Verif.Model.Distribute
import Verif.Lemmas.MustGrowSet
import Mathlib.Tactic.FinCases

/-!
# C109: the concurrent distribution of the points to the parts
-/
namespace Verif
namespace Dist
open Conc

variable {T k : Nat}

/-- Invariant of the loop. -/
structure DInv (D a size : Nat) (part : Nat → Fin k) (all : List Nat) (s : Loop T k) : Prop where
  exec : ∀ j, Growing.ReachExclusive (Growing.new a size T) (s.c j)
  reach : ∀ j, Reach Growing.obj (Growing.InsOp T) (Growing.new a size T) (s.c j)
  todo : ∀ t, ∀ id ∈ s.todo t, id ∈ all
  call : ∀ j t o, Ev.inv t o ∈ (s.c j).hist →
    ∃ id ∈ all, Part.isFinite D id = true ∧ part id = j ∧ o = .insert t id
  th : ∀ j t A, (s.c j).th t = some A → s.cur t = some j ∧
    ∃ id ∈ all, Part.isFinite D id = true ∧ part id = j ∧ A.op = Growing.Op.insert t id
  left : ∀ id ∈ all, Part.isFinite D id = true → (∃ t, id ∈ s.todo t) ∨
    (∃ t A, (s.c (part id)).th t = some A ∧ A.op = Growing.Op.insert t id) ∨ Growing.Acked (s.c (part id)).hist id

theorem DInv.init {D a size : Nat} {part : Nat → Fin k} {work : Fin T → List Nat} :
    DInv D a size part (List.ofFn work).flatten (Loop.init a size work : Loop T k) where
  exec := fun _ => .init
  reach := fun _ => .init
  todo := fun t id h => List.mem_flatten.mpr ⟨work t, (List.mem_ofFn' _ _).mpr ⟨t, rfl⟩, h⟩
  call := by simp [Loop.init, Config.init]
  th := by simp [Loop.init, Config.init]
  left := by
    intro id h _
    obtain ⟨l, hl, h⟩ := List.mem_flatten.mp h
    obtain ⟨t, rfl⟩ := (List.mem_ofFn' _ _).mp hl
    exact Or.inl ⟨t, h⟩

/-- Only the test of the number of items and the search for a slot report a full table. -/
theorem full_loc {s s' : ConcSet.Shared} {l : ConcSet.Loc} (h : ConcSet.step true s l = some (s', .inr .full)) :
    (∃ x, l = .check x) ∨ ∃ x i c, l = .probe x i c := by
  cases l with
  | check x => exact Or.inl ⟨x, rfl⟩
  | probe x i c => exact Or.inr ⟨x, i, c, rfl⟩
  | incr x => simp [ConcSet.step] at h
  | cas x i c =>
    simp only [ConcSet.step] at h
    repeat' split at h
    all_goals simp at h
  | look x i =>
    simp only [ConcSet.step] at h
    repeat' split at h
    all_goals simp at h

/-- The insertion ends with a truth value. -/
theorem ret_bool {s s' : Growing.Shared} {l : Growing.Loc} {r : ConcSet.SetRet}
    (h : Growing.step s l = some (s', .inr r)) : ∃ b, r = .bool b := by
  cases r with
  | bool b => exact ⟨b, rfl⟩
  | full =>
    exfalso
    cases l with
    | tab y l =>
      simp only [Growing.step] at h
      split at h
      · cases h
      · split at h
        · cases h
        · split at h
          · cases h
          · rename_i t' out hst
            cases out with
            | inl l' => simp at h
            | inr r =>
              cases r with
              | bool b => simp at h
              | full =>
                rcases full_loc hst with ⟨x, rfl⟩ | ⟨x, i, c, rfl⟩ <;> simp at h
    | gt2 y c =>
      simp only [Growing.step] at h
      split at h
      · cases h
      · simp only [Option.some.injEq, Prod.mk.injEq] at h
        split at h <;> simp at h
    | mig y w m c =>
      simp only [Growing.step] at h
      repeat' (first | (split at h) | (cases h; done))
      all_goals simp only [Option.some.injEq, Prod.mk.injEq] at h
      all_goals repeat' (first | (split at h) | (cases h; done))
      all_goals simp at h
    | _ =>
      simp only [Growing.step] at h
      repeat' (first | (split at h) | (cases h; done))
      all_goals simp at h

theorem okKey {c c' : Config T Growing.Shared Growing.Loc Growing.Op ConcSet.SetRet}
    (h : Step Growing.obj (Growing.InsOp T) c c') : Step Growing.obj Growing.OkKey c c' := by
  cases h with
  | call t op h1 h2 =>
    refine .call _ t op h1 ?_
    obtain ⟨i, x, rfl, h3, _⟩ := h2
    exact h3
  | internal t a s' l' h1 h2 => exact .internal _ t a s' l' h1 h2
  | ret t a s' r h1 h2 => exact .ret _ t a s' r h1 h2

/-- A step changes at most one set. -/
theorem next_set {D : Nat} {part : Nat → Fin k} {s s' : Loop T k} {t : Fin T} (h : s.next D part t = some s')
    (hall : ∀ u, ∀ id ∈ s.todo u, id ≠ 0) (hth : ∀ j u A, (s.c j).th u = some A → s.cur u = some j) (j : Fin k) :
    s'.c j = s.c j ∨ (Step Growing.obj (Growing.InsOp T) (s.c j) (s'.c j) ∧ ∀ u, u ≠ t → (s'.c j).th u = (s.c j).th u) := by
  unfold Loop.next at h
  split at h
  · rename_i i hi
    split at h
    · cases h
    · rename_i A hA
      split at h
      · cases h
      · rename_i sh l hst
        injection h with h
        subst h
        by_cases e : j = i
        · subst e
          refine Or.inr ?_
          simp only [Function.update_self]
          exact ⟨Step.internal _ t A sh l hA hst, fun u hu => Function.update_of_ne hu _ _⟩
        · exact Or.inl (Function.update_of_ne e _ _)
      · rename_i sh r hst
        injection h with h
        subst h
        by_cases e : j = i
        · subst e
          refine Or.inr ?_
          simp only [Function.update_self]
          exact ⟨Step.ret _ t A sh r hA hst, fun u hu => Function.update_of_ne hu _ _⟩
        · exact Or.inl (Function.update_of_ne e _ _)
  · rename_i hi
    split at h
    · cases h
    · rename_i id l htd
      split at h
      · injection h with h
        subst h
        by_cases e : j = part id
        · subst e
          refine Or.inr ?_
          simp only [Function.update_self]
          refine ⟨Step.call _ t (Growing.Op.insert t id) ?_
            ⟨t, id, rfl, hall t id (by rw [htd]; exact List.mem_cons_self), t.isLt⟩,
            fun u hu => Function.update_of_ne hu _ _⟩
          cases hA : (s.c (part id)).th t with
          | none => rfl
          | some A =>
            have := hth _ t A hA
            rw [hi] at this
            cases this
        · exact Or.inl (Function.update_of_ne e _ _)
      · injection h with h
        subst h
        exact Or.inl rfl

/-- Every thread uses its own handles. -/
theorem exclusive {D : Nat} {part : Nat → Fin k} {all : List Nat} {s : Loop T k}
    (h : ∀ j t A, (s.c j).th t = some A → s.cur t = some j ∧
      ∃ id ∈ all, Part.isFinite D id = true ∧ part id = j ∧ A.op = Growing.Op.insert t id) (j : Fin k) : Growing.Exclusive (s.c j) := by
  intro t u A B hA hB he
  obtain ⟨_, x, _, _, _, h1⟩ := h j t A hA
  obtain ⟨_, y, _, _, _, h2⟩ := h j u B hB
  rw [h1, h2] at he
  exact Fin.ext he

theorem DInv.step {D a size : Nat} {part : Nat → Fin k} {all : List Nat} {s s' : Loop T k} {t : Fin T}
    (h0 : ∀ id ∈ all, id ≠ 0) (h : DInv D a size part all s) (hs : s.next D part t = some s') :
    DInv D a size part all s' := by
  have hset := next_set hs (fun u id hu => h0 id (h.todo u id hu)) (fun j u A hu => (h.th j u A hu).1)
  suffices hx : (∀ t, ∀ id ∈ s'.todo t, id ∈ all) ∧ (∀ j t o, Ev.inv t o ∈ (s'.c j).hist →
      ∃ id ∈ all, Part.isFinite D id = true ∧ part id = j ∧ o = .insert t id) ∧
      (∀ j t A, (s'.c j).th t = some A → s'.cur t = some j ∧
        ∃ id ∈ all, Part.isFinite D id = true ∧ part id = j ∧ A.op = Growing.Op.insert t id) ∧
      (∀ id ∈ all, Part.isFinite D id = true → (∃ t, id ∈ s'.todo t) ∨
        (∃ t A, (s'.c (part id)).th t = some A ∧ A.op = Growing.Op.insert t id) ∨ Growing.Acked (s'.c (part id)).hist id) by
    obtain ⟨h1, h2, h3, h4⟩ := hx
    refine ⟨fun j => ?_, fun j => ?_, h1, h2, h3, h4⟩
    · rcases hset j with e | ⟨e, _⟩
      · rw [e]
        exact h.exec j
      · exact .step (h.exec j) (okKey e) (exclusive h3 j)
    · rcases hset j with e | ⟨e, _⟩
      · rw [e]
        exact h.reach j
      · exact .step (h.reach j) e
  unfold Loop.next at hs
  split at hs
  · rename_i i hi
    split at hs
    · cases hs
    · rename_i A hA
      obtain ⟨_, x, hx, hf, hp, hop⟩ := h.th i t A hA
      split at hs
      · cases hs
      · rename_i sh l hst
        injection hs with hs
        subst hs
        refine ⟨h.todo, fun j u o hu => ?_, fun j u B hu => ?_, fun id hid hfin => ?_⟩
        · by_cases e : j = i
          · subst e
            simp only [Function.update_self] at hu
            exact h.call j u o hu
          · simp only [Function.update_of_ne e] at hu
            exact h.call j u o hu
        · by_cases e : j = i
          · subst e
            simp only [Function.update_self] at hu
            rcases ConcMap.upd_cases hu with ⟨rfl, hy⟩ | ⟨_, hy⟩
            · injection hy with hy
              subst hy
              exact h.th j u A hA
            · exact h.th j u B hy
          · simp only [Function.update_of_ne e] at hu
            exact h.th j u B hu
        · rcases h.left id hid hfin with h1 | ⟨u, B, h1, h2⟩ | h1
          · exact Or.inl h1
          · refine Or.inr (Or.inl ?_)
            by_cases e : part id = i
            · rw [e] at h1 ⊢
              simp only [Function.update_self]
              by_cases e2 : u = t
              · subst e2
                rw [hA] at h1
                injection h1 with h1
                subst h1
                exact ⟨u, ⟨A.op, l, A.steps + 1⟩, by simp, h2⟩
              · exact ⟨u, B, by simp only [Function.update_of_ne e2]; exact h1, h2⟩
            · simp only [Function.update_of_ne e]
              exact ⟨u, B, h1, h2⟩
          · refine Or.inr (Or.inr ?_)
            by_cases e : part id = i
            · rw [e] at h1 ⊢
              simpa only [Function.update_self] using h1
            · simpa only [Function.update_of_ne e] using h1
      · rename_i sh r hst
        injection hs with hs
        subst hs
        refine ⟨h.todo, fun j u o hu => ?_, fun j u B hu => ?_, fun id hid hfin => ?_⟩
        · by_cases e : j = i
          · subst e
            simp only [Function.update_self] at hu
            exact h.call j u o (by simpa using hu)
          · simp only [Function.update_of_ne e] at hu
            exact h.call j u o hu
        · by_cases e : j = i
          · subst e
            simp only [Function.update_self] at hu
            rcases ConcMap.upd_cases hu with ⟨_, hy⟩ | ⟨hne, hy⟩
            · cases hy
            · simp only [Function.update_of_ne hne]
              exact h.th j u B hy
          · simp only [Function.update_of_ne e] at hu
            have h1 := h.th j u B hu
            have hne : u ≠ t := by
              rintro rfl
              rw [hi] at h1
              exact e (Option.some.inj h1.1).symm
            simp only [Function.update_of_ne hne]
            exact h1
        · rcases h.left id hid hfin with h1 | ⟨u, B, h1, h2⟩ | h1
          · exact Or.inl h1
          · refine Or.inr ?_
            by_cases e : part id = i
            · rw [e] at h1 ⊢
              simp only [Function.update_self]
              by_cases e2 : u = t
              · subst e2
                rw [hA] at h1
                injection h1 with h1
                subst h1
                obtain ⟨b, rfl⟩ := ret_bool hst
                exact Or.inr ⟨u, u, b, by rw [h2]; simp⟩
              · exact Or.inl ⟨u, B, by simp only [Function.update_of_ne e2]; exact h1, h2⟩
            · simp only [Function.update_of_ne e]
              exact Or.inl ⟨u, B, h1, h2⟩
          · refine Or.inr (Or.inr ?_)
            by_cases e : part id = i
            · rw [e] at h1 ⊢
              obtain ⟨v, w, b, h1⟩ := h1
              simp only [Function.update_self]
              exact ⟨v, w, b, List.mem_append_left _ h1⟩
            · simpa only [Function.update_of_ne e] using h1
  · rename_i hi
    split at hs
    · cases hs
    · rename_i x l htd
      have hx : x ∈ all := h.todo t x (by rw [htd]; exact List.mem_cons_self)
      have htodo : ∀ u, ∀ id ∈ Function.update s.todo t l u, id ∈ all := by
        intro u id hu
        by_cases e : u = t
        · subst e
          simp only [Function.update_self] at hu
          exact h.todo u id (by rw [htd]; exact List.mem_cons_of_mem _ hu)
        · simp only [Function.update_of_ne e] at hu
          exact h.todo u id hu
      have hleft : ∀ u id, id ∈ s.todo u → id = x ∨ ∃ u, id ∈ Function.update s.todo t l u := by
        intro u id hu
        by_cases e : u = t
        · subst e
          rw [htd] at hu
          rcases List.mem_cons.1 hu with hu | hu
          · exact Or.inl hu
          · exact Or.inr ⟨u, by simpa using hu⟩
        · exact Or.inr ⟨u, by simp only [Function.update_of_ne e]; exact hu⟩
      split at hs
      · rename_i hfx
        injection hs with hs
        subst hs
        refine ⟨htodo, fun j u o hu => ?_, fun j u B hu => ?_, fun id hid hfin => ?_⟩
        · by_cases e : j = part x
          · subst e
            simp only [Function.update_self, List.mem_append, List.mem_singleton] at hu
            rcases hu with hu | hu
            · exact h.call _ u o hu
            · injection hu with h1 h2
              subst h1 h2
              exact ⟨x, hx, hfx, rfl, rfl⟩
          · simp only [Function.update_of_ne e] at hu
            exact h.call j u o hu
        · by_cases e : j = part x
          · subst e
            simp only [Function.update_self] at hu
            rcases ConcMap.upd_cases hu with ⟨rfl, hy⟩ | ⟨hne, hy⟩
            · injection hy with hy
              subst hy
              exact ⟨by simp, x, hx, hfx, rfl, rfl⟩
            · simp only [Function.update_of_ne hne]
              exact h.th _ u B hy
          · simp only [Function.update_of_ne e] at hu
            have h1 := h.th j u B hu
            have hne : u ≠ t := by
              rintro rfl
              rw [hi] at h1
              cases h1.1
            simp only [Function.update_of_ne hne]
            exact h1
        · have hnew : id = x → ∃ u A, (Function.update s.c (part x) { s.c (part x) with
              th := Function.update (s.c (part x)).th t
                (some ⟨.insert t x, Growing.obj.start (.insert t x), 0⟩)
              hist := (s.c (part x)).hist ++ [.inv t (.insert t x)] } (part id)).th u = some A ∧ A.op = .insert u id := by
            rintro rfl
            exact ⟨t, ⟨.insert t id, Growing.obj.start (.insert t id), 0⟩, by simp only [Function.update_self], rfl⟩
          rcases h.left id hid hfin with ⟨u, h1⟩ | ⟨u, B, h1, h2⟩ | h1
          · rcases hleft u id h1 with h1 | h1
            · exact Or.inr (Or.inl (hnew h1))
            · exact Or.inl h1
          · refine Or.inr (Or.inl ?_)
            have h3 := h.th _ u B h1
            have hne : u ≠ t := by
              rintro rfl
              rw [hi] at h3
              cases h3.1
            by_cases e : part id = part x
            · rw [e] at h1 ⊢
              simp only [Function.update_self]
              exact ⟨u, B, by simp only [Function.update_of_ne hne]; exact h1, h2⟩
            · simp only [Function.update_of_ne e]
              exact ⟨u, B, h1, h2⟩
          · refine Or.inr (Or.inr ?_)
            by_cases e : part id = part x
            · rw [e] at h1 ⊢
              obtain ⟨v, w, b, h1⟩ := h1
              simp only [Function.update_self]
              exact ⟨v, w, b, List.mem_append_left _ h1⟩
            · simpa only [Function.update_of_ne e] using h1
      · rename_i hfx
        injection hs with hs
        subst hs
        refine ⟨htodo, h.call, h.th, fun id hid hfin => ?_⟩
        rcases h.left id hid hfin with ⟨u, h1⟩ | h1
        · rcases hleft u id h1 with rfl | h1
          · exact absurd hfin hfx
          · exact Or.inl h1
        · exact Or.inr h1

theorem DInv.steps {D a size : Nat} {part : Nat → Fin k} {all : List Nat} {s s' : Loop T k}
    (h0 : ∀ id ∈ all, id ≠ 0) (h : DInv D a size part all s)
    (hs : Relation.ReflTransGen (Loop.Step D part) s s') : DInv D a size part all s' := by
  induction hs with
  | refl => exact h
  | tail _ h1 ih =>
    obtain ⟨t, h1⟩ := h1
    exact ih.step h0 h1

/-- At the end every part has the points it should, if the executions of all sets are timely. -/
theorem final_ids {D a size : Nat} {part : Nat → Fin k} {all : List Nat} {s : Loop T k} (hsz : 0 < size)
    (h0 : ∀ id ∈ all, id ≠ 0) (hn : all.Nodup) (h : DInv D a size part all s) (hf : s.final) (j : Fin k)
    (ht : Growing.ReachTimely (Growing.new a size T) (s.c j)) :
    (s.ids j).Perm (all.filter fun id => Part.isFinite D id && decide (part id = j)) := by
  have hCI := Growing.timely_CI hsz ht
  have hidle : ∀ t A, (s.c j).th t ≠ some A := by
    intro t A hA
    have := (h.th j t A hA).1
    rw [(hf t).1] at this
    cases this
  have hlen : (s.c j).sh.tabs.length = (s.c j).sh.er + 1 := by
    have h1 := hCI.g.last
    have h2 := hCI.g.er_lt
    have h3 : (s.c j).sh.tabs.length ≠ (s.c j).sh.er + 2 := by
      intro e
      obtain ⟨t, A, hA, _⟩ := hCI.gro e
      exact hidle t A hA
    omega
  have htr : (s.c j).sh.tr = (s.c j).sh.er := by
    have h1 := hCI.g.er_tr
    have h2 := hCI.g.tr_lt
    omega
  have hids : s.ids j = (Growing.ar (s.c j).sh (s.c j).sh.er).filter fun x => x != 0 := by
    unfold Loop.ids Growing.ar
    rw [htr]
    have hlt : (s.c j).sh.er < (s.c j).sh.tabs.length := by omega
    rw [List.getElem?_eq_getElem hlt]
    exact List.filter_congr (fun x _ => by rw [bne, decide_not]; rfl)
  rw [hids]
  obtain ⟨_, _, hpath⟩ := hCI.g.tab (s.c j).sh.er hCI.g.er_lt
  refine (List.perm_ext_iff_of_nodup hpath.nodup (hn.filter _)).2 (fun id => ?_)
  simp only [List.mem_filter, bne_iff_ne, ne_eq, Bool.and_eq_true, decide_eq_true_eq]
  constructor
  · rintro ⟨h1, h2⟩
    have hG := Growing.reach_inv (h.reach j)
    have hst : Growing.Stored (s.c j).sh id := by
      unfold Growing.ar at h1
      cases htb : (s.c j).sh.tabs[(s.c j).sh.er]? with
      | none =>
        rw [htb] at h1
        cases h1
      | some tb =>
        rw [htb] at h1
        exact ⟨tb, List.mem_of_getElem? htb, h1⟩
    obtain ⟨t, i, hc⟩ := hG.sto id h2 hst
    obtain ⟨y, hy, hyf, hyp, hyo⟩ := h.call j t _ hc
    injection hyo with _ e
    subst e
    exact ⟨hy, hyf, hyp⟩
  · rintro ⟨h1, h2, h3⟩
    refine ⟨?_, h0 id h1⟩
    rcases h.left id h1 h2 with ⟨t, h4⟩ | ⟨t, A, h4, _⟩ | h4
    · rw [(hf t).2] at h4
      cases h4
    · rw [h3] at h4
      exact absurd h4 (hidle t A)
    · rw [h3] at h4
      exact (hCI.ack id h4).2

/-- A step in which no thread writes its id into a slot that has been handed out for copying. -/
def TimelyStep (D : Nat) (part : Nat → Fin k) (s s' : Loop T k) : Prop :=
  ∃ t, s.next D part t = some s' ∧ ∀ j, ¬ Growing.Late (s.c j) t

theorem timely_steps {D a size : Nat} {part : Nat → Fin k} {all : List Nat} {s s' : Loop T k}
    (h0 : ∀ id ∈ all, id ≠ 0) (h : DInv D a size part all s)
    (ht : ∀ j, Growing.ReachTimely (Growing.new a size T) (s.c j))
    (hs : Relation.ReflTransGen (TimelyStep D part) s s') :
    DInv D a size part all s' ∧ ∀ j, Growing.ReachTimely (Growing.new a size T) (s'.c j) := by
  induction hs with
  | refl => exact ⟨h, ht⟩
  | tail _ h1 ih =>
    obtain ⟨t, h1, h2⟩ := h1
    have h3 := ih.1.step h0 h1
    refine ⟨h3, fun j => ?_⟩
    rcases next_set h1 (fun u id hu => h0 id (ih.1.todo u id hu)) (fun j u A hu => (ih.1.th j u A hu).1) j with e | ⟨e, e2⟩
    · rw [e]
      exact ih.2 j
    · refine .step (ih.2 j) (okKey e) (exclusive h3.th j) (fun u hu => ?_)
      by_cases e3 : u = t
      · subst e3
        exact absurd hu (h2 j)
      · exact e2 u e3

/-- **C109 (partial).** Any number of threads distribute any ids (not zero, without duplicates) to any number of
parts, not more than there are ids. If no thread writes an id into a slot of a table that has already
been handed out for copying, then at the end the set of every part consists of exactly the finite ids of the part, each
of them once, however often the sets grow.
Missing: the code does not prevent such writes, and then ids are lost (`C109_violated`). -/
theorem C109_partial (D a : Nat) (part : Nat → Fin k) (ids : List Nat) (h0 : 0 ∉ ids) (hn : ids.Nodup)
    (hk : k ≤ ids.length) (work : Fin T → List Nat) (hw : ((List.ofFn work).flatten).Perm ids) (s : Loop T k)
    (hs : Relation.ReflTransGen (TimelyStep D part) (Loop.init a (ids.length / k) work) s) (hf : s.final) (j : Fin k) :
    (s.ids j).Perm (ids.filter fun id => Part.isFinite D id && decide (part id = j)) := by
  have h1 : ∀ id ∈ (List.ofFn work).flatten, id ≠ 0 := fun id h e => h0 (hw.mem_iff.1 (e ▸ h))
  have h2 := timely_steps h1 DInv.init (fun _ => .init) hs
  exact (final_ids (Nat.div_pos hk (Nat.lt_of_le_of_lt (Nat.zero_le _) j.isLt)) h1 (hw.nodup_iff.2 hn) h2.1 hf j
    (h2.2 j)).trans (hw.filter _)

/-- **C109 (partial).** Nothing is lost from a set that does not grow. -/
theorem C109_no_growth_partial (D a : Nat) (part : Nat → Fin k) (ids : List Nat) (h0 : 0 ∉ ids) (hn : ids.Nodup)
    (hk : k ≤ ids.length) (s : Loop T k) (hs : Distributes D k T a part ids s) (j : Fin k)
    (hg : (s.c j).sh.tabs.length = 1) :
    (s.ids j).Perm (ids.filter fun id => Part.isFinite D id && decide (part id = j)) := by
  obtain ⟨work, hw, hs, hf⟩ := hs
  have h1 : ∀ id ∈ (List.ofFn work).flatten, id ≠ 0 := fun id h e => h0 (hw.mem_iff.1 (e ▸ h))
  have h2 := DInv.init.steps h1 hs
  have h3 : 0 < ids.length / k := Nat.div_pos hk (Nat.lt_of_le_of_lt (Nat.zero_le _) j.isLt)
  exact (final_ids h3 h1 (hw.nodup_iff.2 hn) h2 hf j (Growing.nogrow_timely h3 (h2.exec j) hg)).trans (hw.filter _)

/-- **C109 (partial).** One thread does not lose anything, however often the sets grow. -/
theorem C109_one_thread_partial (D a : Nat) (part : Nat → Fin k) (ids : List Nat) (h0 : 0 ∉ ids) (hn : ids.Nodup)
    (hk : k ≤ ids.length) (s : Loop 1 k) (hs : Distributes D k 1 a part ids s) (j : Fin k) :
    (s.ids j).Perm (ids.filter fun id => Part.isFinite D id && decide (part id = j)) := by
  obtain ⟨work, hw, hs, hf⟩ := hs
  have h1 : ∀ id ∈ (List.ofFn work).flatten, id ≠ 0 := fun id h e => h0 (hw.mem_iff.1 (e ▸ h))
  have h2 := DInv.init.steps h1 hs
  have h3 : 0 < ids.length / k := Nat.div_pos hk (Nat.lt_of_le_of_lt (Nat.zero_le _) j.isLt)
  refine (final_ids h3 h1 (hw.nodup_iff.2 hn) h2 hf j (Growing.serial_timely h3 ?_)).trans (hw.filter _)
  have h4 := h2.exec j
  clear h2 hs
  generalize s.c j = c at h4
  induction h4 with
  | init => exact .init
  | step _ hst hex ih => exact .step ih hst hex (fun t u _ _ _ _ _ _ _ _ _ _ => Subsingleton.elim t u)

/-- **C109: when a set has to grow.** A part with at least as many points as half the number of slots of its set plus
the number of threads makes its set grow, in every execution. The set has `ids.size()/partitions` slots, rounded up
to a power of two. -/
theorem C109_grows (D a : Nat) (part : Nat → Fin k) (ids : List Nat) (h0 : 0 ∉ ids) (hn : ids.Nodup)
    (hk : 2 * k ≤ ids.length) (s : Loop T k) (hs : Distributes D k T a part ids s) (j : Fin k)
    (hg : nextPow2 (ids.length / k) / 2 + T ≤
      (ids.filter fun id => Part.isFinite D id && decide (part id = j)).length) :
    2 ≤ (s.c j).sh.tabs.length := by
  obtain ⟨work, hw, hs, hf⟩ := hs
  have h1 : ∀ id ∈ (List.ofFn work).flatten, id ≠ 0 := fun id h e => h0 (hw.mem_iff.1 (e ▸ h))
  have h2 := DInv.init.steps h1 hs
  have h3 : 2 ≤ ids.length / k := (Nat.le_div_iff_mul_le (Nat.lt_of_le_of_lt (Nat.zero_le _) j.isLt)).2 hk
  obtain ⟨p, hp⟩ := nextPow2_isPow (Nat.lt_of_lt_of_le Nat.zero_lt_two h3)
  rcases Growing.one_or_more hp (h2.reach j) with h4 | ⟨tb, h4⟩
  · exact h4
  · exfalso
    have hidle : ∀ t, (s.c j).th t = none := by
      intro t
      cases hA : (s.c j).th t with
      | none => rfl
      | some A =>
        have := (h2.th j t A hA).1
        rw [(hf t).1] at this
        cases this
    have h5 := h4.cnt
    rw [cnt_eq_zero (fun t => by rw [hidle t]; rfl)] at h5
    have h6 := h4.bound
    have h7 : (ids.filter fun id => Part.isFinite D id && decide (part id = j)).toFinset ⊆
        (tb.t.arr.filter (fun x => x != 0)).toFinset := by
      intro id hid
      simp only [List.mem_toFinset, List.mem_filter, Bool.and_eq_true, decide_eq_true_eq] at hid
      obtain ⟨h8, h9, h10⟩ := hid
      rcases h2.left id (hw.mem_iff.2 h8) h9 with ⟨t, h11⟩ | ⟨t, A, h11, _⟩ | ⟨t, i, b, h11⟩
      · rw [(hf t).2] at h11
        cases h11
      · rw [h10, hidle t] at h11
        cases h11
      · rw [h10] at h11
        have := h4.res t _ _ h11
        exact List.mem_toFinset.2 (List.mem_filter.2 ⟨this.2, by simpa [Growing.Op.key] using this.1⟩)
    have h8 := (Finset.card_le_card h7).trans (List.toFinset_card_le _)
    rw [List.toFinset_card_of_nodup (hn.filter _)] at h8
    have h9 : occ tb.t.arr = (tb.t.arr.filter (fun x => x != 0)).length := by
      unfold occ
      rw [List.countP_eq_length_filter]
    rw [hp] at hg
    have h10 := le_nextPow2 (ids.length / k)
    rw [hp] at h10
    omega

/-! ### Executable schedules -/

/-- Steps of the threads in a given order. -/
def Loop.run (D : Nat) (part : Nat → Fin k) : Loop T k → List (Fin T) → Option (Loop T k)
  | s, [] => some s
  | s, t :: l => match s.next D part t with
    | none => none
    | some s' => Loop.run D part s' l

theorem Loop.run_steps {D : Nat} {part : Nat → Fin k} : ∀ {l : List (Fin T)} {s s' : Loop T k}, s.run D part l = some s' →
    Relation.ReflTransGen (Loop.Step D part) s s'
  | [], s, s', h => by
    injection h with h
    subst h
    exact .refl
  | t :: l, s, s', h => by
    unfold Loop.run at h
    split at h
    · cases h
    · rename_i s1 h1
      exact .head ⟨t, h1⟩ (Loop.run_steps h)

/-- Steps of the threads in a given order, none of them late. -/
def Loop.runT (D : Nat) (part : Nat → Fin k) : Loop T k → List (Fin T) → Option (Loop T k)
  | s, [] => some s
  | s, t :: l =>
    if (List.finRange k).all fun j => !Growing.lateB (s.c j) t then
      match s.next D part t with
      | none => none
      | some s' => Loop.runT D part s' l
    else none

theorem Loop.runT_steps {D : Nat} {part : Nat → Fin k} : ∀ {l : List (Fin T)} {s s' : Loop T k}, s.runT D part l = some s' →
    Relation.ReflTransGen (TimelyStep D part) s s'
  | [], s, s', h => by
    injection h with h
    subst h
    exact .refl
  | t :: l, s, s', h => by
    unfold Loop.runT at h
    split at h
    · rename_i hl
      split at h
      · cases h
      · rename_i s1 h1
        refine .head ⟨t, h1, fun j hj => ?_⟩ (Loop.runT_steps h)
        have h2 := Growing.lateB_of hj
        have h3 := List.all_eq_true.1 hl j (List.mem_finRange j)
        rw [h2] at h3
        cases h3
    · cases h

/-- What a run shows: the ids of the parts and the number of tables of their sets, if the threads are done. -/
def outcome (s : Loop T k) : Option (List (List Nat × Nat)) :=
  if (List.finRange T).all fun t => (s.cur t).isNone && (s.todo t).isEmpty then
    some ((List.finRange k).map fun j => (s.ids j, (s.c j).sh.tabs.length))
  else none

theorem outcome_final {s : Loop T k} {r : List (List Nat × Nat)} (h : outcome s = some r) :
    s.final ∧ r = (List.finRange k).map fun j => (s.ids j, (s.c j).sh.tabs.length) := by
  unfold outcome at h
  split at h
  · rename_i hf
    injection h with h
    refine ⟨fun t => ?_, h.symm⟩
    have := List.all_eq_true.1 hf t (List.mem_finRange t)
    simpa [Bool.and_eq_true, Option.isNone_iff_eq_none, List.isEmpty_iff] using this
  · cases h

theorem run_distributes {D a : Nat} {part : Nat → Fin k} {ids : List Nat} {work : Fin T → List Nat} {l : List (Fin T)}
    {r : List (List Nat × Nat)} (hw : ((List.ofFn work).flatten).Perm ids)
    (h : ((Loop.init a (ids.length / k) work).run D part l).bind outcome = some r) :
    ∃ s : Loop T k, Distributes D k T a part ids s ∧
      (List.finRange k).map (fun j => (s.ids j, (s.c j).sh.tabs.length)) = r := by
  obtain ⟨s, h1, h2⟩ := Option.bind_eq_some_iff.1 h
  obtain ⟨h3, h4⟩ := outcome_final h2
  exact ⟨s, ⟨work, hw, Loop.run_steps h1, h3⟩, h4.symm⟩

/-- The points 1 to `m` and the four infinite points of the plane. -/
def points (m : Nat) : List Nat := (List.range m).map (· + 1) ++ Part.infIds 2

/-- Even ids in part 0, odd ids in part 1. -/
def parity (id : Nat) : Fin 2 := ⟨id % 2, Nat.mod_lt _ (by omega)⟩

/-- The first `m` ids for thread 0, the others for thread 1. -/
def split (m : Nat) (ids : List Nat) (t : Fin 2) : List Nat := if t = 0 then ids.take m else ids.drop m

theorem split_perm (m : Nat) (ids : List Nat) : ((List.ofFn (split m ids)).flatten).Perm ids := by
  simp [List.ofFn_succ, split]

/-- The hypotheses are met: two threads that take turns distribute twelve points; both sets grow and the threads
copy together. -/
example : ∃ s : Loop 2 2, Relation.ReflTransGen (TimelyStep 2 parity)
      (Loop.init 1 ((points 12).length / 2) (split 6 (points 12))) s ∧ s.final ∧
    (List.finRange 2).map (fun j => (s.ids j, (s.c j).sh.tabs.length)) =
      [([2, 4, 6, 8, 10, 12], 2), ([1, 3, 5, 7, 9, 11], 2)] := by
  have h : ((Loop.init 1 ((points 12).length / 2) (split 6 (points 12)) : Loop 2 2).runT 2 parity
      ((List.replicate 101 [0, 1]).flatten ++ List.replicate 4 1)).bind outcome =
      some [([2, 4, 6, 8, 10, 12], 2), ([1, 3, 5, 7, 9, 11], 2)] := by
    decide +kernel
  obtain ⟨s, h1, h2⟩ := Option.bind_eq_some_iff.1 h
  obtain ⟨h3, h4⟩ := outcome_final h2
  exact ⟨s, Loop.runT_steps h1, h3, h4.symm⟩

/-- Two threads, and the sets are large enough. -/
example : ∃ s : Loop 2 2, Distributes 2 2 2 1 parity (points 4) s ∧
    (List.finRange 2).map (fun j => (s.ids j, (s.c j).sh.tabs.length)) = [([4, 2], 1), ([1, 3], 1)] := by
  refine run_distributes (split_perm 2 _) (l := (List.replicate 12 [0, 1]).flatten ++ List.replicate 4 1) ?_
  decide +kernel

/-- One thread, and the sets grow. -/
example : ∃ s : Loop 1 2, Distributes 2 2 1 1 parity (points 12) s ∧
    (List.finRange 2).map (fun j => (s.ids j, (s.c j).sh.tabs.length)) =
      [([2, 4, 6, 8, 10, 12], 2), ([1, 3, 5, 7, 9, 11], 2)] := by
  refine run_distributes (work := fun _ => points 12) (by simp) (l := List.replicate 142 0) ?_
  decide +kernel

/-- Twelve points, distributed evenly to two parts by two threads, are enough: both sets have to grow. -/
example : ∀ j, nextPow2 ((points 12).length / 2) / 2 + 2 ≤
    ((points 12).filter fun id => Part.isFinite 2 id && decide (parity id = j)).length := by
  decide +kernel

/-- **C109 is violated when a set grows.** Two threads distribute twelve points to two parts, six points each. Thread 0
has found a free slot for point 11 when thread 1 makes the set of part 1 grow and copies the ids; thread 0 then writes 11
into the old table. At the end point 11 does not belong to any part, although all insertions have reported success. -/
theorem C109_violated : ∃ s : Loop 2 2, Distributes 2 2 2 1 parity (points 12) s ∧
    11 ∈ points 12 ∧ Part.isFinite 2 11 = true ∧ ∀ j, 11 ∉ s.ids j := by
  obtain ⟨s, h1, h2⟩ := run_distributes (D := 2) (a := 1) (part := parity) (r := [([2, 4, 6, 8, 10, 12], 2), ([1, 3, 5, 7, 9], 2)])
    (ids := points 12) (work := fun t => split 10 (points 12) (1 - t)) (by
      have : (points 12).Perm ((points 12).drop 10 ++ (points 12).take 10) := by
        conv_lhs => rw [← List.take_append_drop 10 (points 12)]
        exact List.perm_append_comm
      simpa [List.ofFn_succ, split] using this.symm)
    (l := List.replicate 4 0 ++ List.replicate 126 1 ++ List.replicate 16 0) (by decide +kernel)
  refine ⟨s, h1, by decide +kernel, by decide +kernel, ?_⟩
  have h3 : [s.ids 0, s.ids 1] = [[2, 4, 6, 8, 10, 12], [1, 3, 5, 7, 9]] := by
    have := congrArg (List.map Prod.fst) h2
    simpa [List.finRange_succ] using this
  injection h3 with h4 h5
  injection h5 with h5 _
  intro j
  fin_cases j
  · simp only [Fin.zero_eta, h4]
    decide
  · simp only [Fin.mk_one, h5]
    decide

end Dist
end Verif
