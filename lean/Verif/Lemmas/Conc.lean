import Verif.Model.Conc
import Mathlib.Algebra.BigOperators.Group.Finset.Basic
import Mathlib.Data.Fintype.Basic

/-!
# General lemmas about concurrent executions
-/
namespace Verif
namespace Conc

variable {n : Nat} {S L Op R σ : Type}

theorem update_self {α : Type} (f : Fin n → α) (t : Fin n) (x : α) (h : f t = x) :
    Function.update f t x = f := by
  subst h; exact Function.update_eq_self t f

/-- Status of a thread given whether its linearization point has passed. -/
def statusOf (dn : L → Option R) : Option (Active L Op) → Status Op R
  | none => .idle
  | some a => match dn a.loc with
    | none => .pending a.op
    | some r => .linearized a.op r

/-- Conditions on a step for forward simulation. -/
def SimStep (spec : σ → Op → R → σ → Prop) (Abs : S → σ) (dn : L → Option R)
    (s : S) (a : Active L Op) (s' : S) (out : L ⊕ R) : Prop :=
  match dn a.loc with
  | some r => Abs s' = Abs s ∧ (match out with
      | .inl l' => dn l' = some r
      | .inr r' => r' = r)
  | none => match out with
    | .inl l' => (match dn l' with
        | none => Abs s' = Abs s
        | some r => spec (Abs s) a.op r (Abs s'))
    | .inr r => spec (Abs s) a.op r (Abs s')

/-- Forward simulation with fixed linearization points. -/
theorem legal_of_sim {o : Obj S L Op R} {ok : Op → Prop} {s0 : S}
    {spec : σ → Op → R → σ → Prop} {Abs : S → σ} {dn : L → Option R}
    (hstart : ∀ op, dn (o.start op) = none)
    (hstep : ∀ (c : Config n S L Op R) t a, Reach o ok s0 c → c.th t = some a →
      ∀ s' out, o.step c.sh a.loc = some (s', out) → SimStep spec Abs dn c.sh a s' out)
    {c : Config n S L Op R} (h : Reach o ok s0 c) :
    ∃ e, Legal spec (Abs s0) e (fun t => statusOf dn (c.th t)) (Abs c.sh) ∧
      e.filterMap LEv.visible = c.hist := by
  have key : ∀ (f : Fin n → Option (Active L Op)) (t : Fin n) (x : Option (Active L Op)),
      (fun u => statusOf dn (Function.update f t x u)) =
        Function.update (fun u => statusOf dn (f u)) t (statusOf (R := R) dn x) := by
    intro f t x
    funext u
    by_cases hu : u = t
    · subst hu; simp
    · simp [hu]
  induction h with
  | init => exact ⟨[], Legal.nil, rfl⟩
  | @step c c' hc hs ih =>
    obtain ⟨e, hl, he⟩ := ih
    cases hs with
    | call t op hidle hok =>
      refine ⟨e ++ [.vis (.inv t op)], ?_, by simp [he, LEv.visible]⟩
      simp only [key]
      have hst : statusOf dn (some (⟨op, o.start op, 0⟩ : Active L Op)) = .pending op := by
        simp [statusOf, hstart]
      rw [hst]
      exact Legal.inv t op hl (by simp [statusOf, hidle])
    | internal t a s' l' hth hstp =>
      have hsim := hstep c t a hc hth s' _ hstp
      simp only [key]
      unfold SimStep at hsim
      cases hd : dn a.loc with
      | some r =>
        simp only [hd] at hsim
        have hst : statusOf dn (some (⟨a.op, l', a.steps + 1⟩ : Active L Op)) = .linearized a.op r := by
          simp [statusOf, hsim.2]
        rw [hst, update_self _ _ _ (by simp [hth, statusOf, hd]), hsim.1]
        exact ⟨e, hl, he⟩
      | none =>
        simp only [hd] at hsim
        cases hd' : dn l' with
        | none =>
          simp only [hd'] at hsim
          have hst : statusOf dn (some (⟨a.op, l', a.steps + 1⟩ : Active L Op)) = .pending a.op := by
            simp [statusOf, hd']
          rw [hst, update_self _ _ _ (by simp [hth, statusOf, hd]), hsim]
          exact ⟨e, hl, he⟩
        | some r =>
          simp only [hd'] at hsim
          have hst : statusOf dn (some (⟨a.op, l', a.steps + 1⟩ : Active L Op)) = .linearized a.op r := by
            simp [statusOf, hd']
          rw [hst]
          refine ⟨e ++ [.lin t a.op r], ?_, by simp [he, LEv.visible]⟩
          exact Legal.lin t a.op r hl (by simp [hth, statusOf, hd]) hsim
    | ret t a s' r hth hstp =>
      have hsim := hstep c t a hc hth s' _ hstp
      simp only [key]
      have hst : statusOf dn (none : Option (Active L Op)) = (.idle : Status Op R) := rfl
      rw [hst]
      unfold SimStep at hsim
      cases hd : dn a.loc with
      | some r' =>
        simp only [hd] at hsim
        obtain ⟨h1, rfl⟩ := hsim
        refine ⟨e ++ [.vis (.res t a.op r)], ?_, by simp [he, LEv.visible]⟩
        rw [h1]
        exact Legal.res t a.op r hl (by simp [hth, statusOf, hd])
      | none =>
        simp only [hd] at hsim
        refine ⟨e ++ [.lin t a.op r] ++ [.vis (.res t a.op r)], ?_, by simp [he, LEv.visible, List.filterMap_cons]⟩
        have h1 := Legal.lin t a.op r hl (by simp [hth, statusOf, hd]) hsim
        have h2 := Legal.res t a.op r h1 (by simp)
        simpa using h2

theorem linearizable_of_sim {o : Obj S L Op R} {ok : Op → Prop} {s0 : S}
    {spec : σ → Op → R → σ → Prop} {Abs : S → σ} {dn : L → Option R}
    (hstart : ∀ op, dn (o.start op) = none)
    (hstep : ∀ (c : Config n S L Op R) t a, Reach o ok s0 c → c.th t = some a →
      ∀ s' out, o.step c.sh a.loc = some (s', out) → SimStep spec Abs dn c.sh a s' out)
    {c : Config n S L Op R} (h : Reach o ok s0 c) :
    Linearizable spec (Abs s0) c.hist := by
  obtain ⟨e, hl, he⟩ := legal_of_sim hstart hstep h
  exact ⟨e, _, _, hl, he⟩

/-! counting threads -/

/-- Number of threads whose state satisfies `p`. -/
def cnt {α : Type} (p : α → Bool) (f : Fin n → α) : Nat := ∑ t, if p (f t) then 1 else 0

theorem cnt_update {α : Type} (p : α → Bool) (f : Fin n → α) (t : Fin n) (x : α) :
    cnt p (Function.update f t x) + (if p (f t) then 1 else 0) =
      cnt p f + (if p x then 1 else 0) := by
  unfold cnt
  rw [← Finset.add_sum_erase Finset.univ (fun u => if p (f u) then 1 else 0) (Finset.mem_univ t),
    ← Finset.add_sum_erase Finset.univ (fun u => if p (Function.update f t x u) then 1 else 0)
      (Finset.mem_univ t)]
  have : ∑ u ∈ Finset.univ.erase t, (if p (Function.update f t x u) then 1 else 0) =
      ∑ u ∈ Finset.univ.erase t, (if p (f u) then 1 else 0) := by
    apply Finset.sum_congr rfl
    intro u hu
    rw [Function.update_of_ne (Finset.ne_of_mem_erase hu)]
  rw [this]
  simp only [Function.update_self]
  omega

theorem cnt_update_same {α : Type} {p : α → Bool} {f : Fin n → α} {t : Fin n} {x : α}
    (h : p x = p (f t)) : cnt p (Function.update f t x) = cnt p f := by
  have := cnt_update p f t x
  rw [h] at this
  omega

theorem cnt_update_add {α : Type} {p : α → Bool} {f : Fin n → α} {t : Fin n} {x : α}
    (h1 : p (f t) = false) (h2 : p x = true) : cnt p (Function.update f t x) = cnt p f + 1 := by
  have := cnt_update p f t x
  rw [h1, h2] at this
  simpa using this

theorem cnt_update_sub {α : Type} {p : α → Bool} {f : Fin n → α} {t : Fin n} {x : α}
    (h1 : p (f t) = true) (h2 : p x = false) : cnt p (Function.update f t x) + 1 = cnt p f := by
  have := cnt_update p f t x
  rw [h1, h2] at this
  simpa using this

theorem cnt_pos {α : Type} {p : α → Bool} {f : Fin n → α} {t : Fin n} (h : p (f t) = true) :
    0 < cnt p f := by
  unfold cnt
  rw [← Finset.add_sum_erase Finset.univ (fun u => if p (f u) then 1 else 0) (Finset.mem_univ t)]
  simp only [h, if_true]
  omega

theorem cnt_eq_zero {α : Type} {p : α → Bool} {f : Fin n → α} (h : ∀ t, p (f t) = false) :
    cnt p f = 0 := by
  unfold cnt
  simp [h]

theorem cnt_pos_iff {α : Type} {p : α → Bool} {f : Fin n → α} :
    0 < cnt p f ↔ ∃ t, p (f t) = true := by
  constructor
  · intro h
    by_contra hc
    push Not at hc
    rw [cnt_eq_zero (fun t => by simpa using hc t)] at h
    omega
  · rintro ⟨t, ht⟩
    exact cnt_pos ht

/-- An invariant that holds initially and is preserved by every step holds in every reachable state. -/
theorem Reach.induct {o : Obj S L Op R} {ok : Op → Prop} {s0 : S}
    {P : Config n S L Op R → Prop} (h0 : P (Config.init n s0))
    (hs : ∀ c c', Reach o ok s0 c → P c → Step o ok c c' → P c')
    {c : Config n S L Op R} (h : Reach o ok s0 c) : P c := by
  induction h with
  | init => exact h0
  | step hc hst ih => exact hs _ _ hc ih hst

/-! executable schedules, for witnesses -/

/-- An action of a scheduler: let a thread call an operation or perform its next step. -/
inductive Act (n : Nat) (Op : Type) where
  | call (t : Fin n) (op : Op)
  | run (t : Fin n)

/-- Perform one action. -/
def exec1 (o : Obj S L Op R) (ok : Op → Bool) (c : Config n S L Op R) : Act n Op →
    Option (Config n S L Op R)
  | .call t op => match c.th t with
    | none => if ok op then
        some { c with th := Function.update c.th t (some ⟨op, o.start op, 0⟩),
                      hist := c.hist ++ [.inv t op] }
      else none
    | some _ => none
  | .run t => match c.th t with
    | none => none
    | some a => match o.step c.sh a.loc with
      | none => none
      | some (s', .inl l') =>
        some { c with sh := s', th := Function.update c.th t (some ⟨a.op, l', a.steps + 1⟩) }
      | some (s', .inr r) =>
        some { sh := s', th := Function.update c.th t none, hist := c.hist ++ [.res t a.op r] }

/-- Perform a list of actions. -/
def exec (o : Obj S L Op R) (ok : Op → Bool) : Config n S L Op R → List (Act n Op) →
    Option (Config n S L Op R)
  | c, [] => some c
  | c, x :: xs => match exec1 o ok c x with
    | none => none
    | some c' => exec o ok c' xs

theorem exec1_step {o : Obj S L Op R} {ok : Op → Bool} {c c' : Config n S L Op R} {x : Act n Op}
    (h : exec1 o ok c x = some c') : Step o (fun op => ok op = true) c c' := by
  cases x with
  | call t op =>
    simp only [exec1] at h
    split at h
    · rename_i hi
      split at h
      · rename_i hok
        injection h with h
        subst h
        exact .call c t op hi hok
      · cases h
    · cases h
  | run t =>
    simp only [exec1] at h
    split at h
    · cases h
    · rename_i a ha
      split at h
      · cases h
      · rename_i s' l' hst
        injection h with h
        subst h
        exact .internal c t a s' l' ha hst
      · rename_i s' r hst
        injection h with h
        subst h
        exact .ret c t a s' r ha hst

theorem exec_reach {o : Obj S L Op R} {ok : Op → Bool} {s0 : S} :
    ∀ {l : List (Act n Op)} {c c' : Config n S L Op R},
    Reach o (fun op => ok op = true) s0 c → exec o ok c l = some c' →
      Reach o (fun op => ok op = true) s0 c'
  | [], c, c', h, he => by
    injection he with he
    subst he
    exact h
  | x :: xs, c, c', h, he => by
    unfold exec at he
    split at he
    · cases he
    · rename_i c1 h1
      exact exec_reach (h.step (exec1_step h1)) he

theorem reach_mono {o : Obj S L Op R} {ok ok' : Op → Prop} {s : S}
    (himp : ∀ op, ok op → ok' op) {c : Config n S L Op R} (h : Reach o ok s c) :
    Reach o ok' s c := by
  induction h with
  | init => exact .init
  | step hc hs ih =>
    refine .step ih ?_
    cases hs with
    | call t op h1 h2 => exact .call _ t op h1 (himp op h2)
    | internal t a s' l' h1 h2 => exact .internal _ t a s' l' h1 h2
    | ret t a s' r h1 h2 => exact .ret _ t a s' r h1 h2

/-- A history produced by a schedule is the history of a reachable state. -/
theorem exec_hist {o : Obj S L Op R} {ok : Op → Bool} {ok' : Op → Prop} {s0 : S}
    (himp : ∀ op, ok op = true → ok' op) {l : List (Act n Op)} {h : List (Ev n Op R)}
    (he : (exec o ok (Config.init n s0) l).map (fun c => c.hist) = some h) :
    ∃ c, Reach o ok' s0 c ∧ c.hist = h := by
  cases hc : exec o ok (Config.init n s0) l with
  | none => rw [hc] at he; cases he
  | some c =>
    rw [hc] at he
    injection he with he
    exact ⟨c, reach_mono himp (exec_reach .init hc), he⟩

end Conc
end Verif
