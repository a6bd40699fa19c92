import Verif.Model.IndexHandler
import Verif.Lemmas.Conc
import Verif.Lemmas.ConcMap

/-!
# Properties of the identifier allocators (C23, C24)
-/
namespace Verif
namespace IndexHandler

/-- Calls of a client. -/
inductive Op
  | get
  | release (x : Nat)
  | disable
deriving DecidableEq

/-- Events of a sequential run: an id was handed out, an id was released, reuse was disabled. -/
inductive Ev
  | got (x : Nat)
  | rel (x : Nat)
  | dis
deriving DecidableEq

/-- The code called, and the event. -/
def call (s : St) : Op → St × Ev
  | .get => ((getId s).1, .got (getId s).2)
  | .release x => (releaseId s x, .rel x)
  | .disable => (disable s, .dis)

/-- A sequence of calls with the events. -/
def run (s : St) : List Op → St × List Ev
  | [] => (s, [])
  | op :: ops => let r := run (call s op).1 ops; (r.1, (call s op).2 :: r.2)

/-- Specification: the ids handed out and not released. -/
def live (tr : List Ev) : List Nat :=
  tr.foldl (fun l e => match e with
    | .got x => x :: l
    | .rel x => l.erase x
    | .dis => l) []

/-- Only live ids are released. -/
def Legal (tr : List Ev) : Prop := ∀ pre x post, tr = pre ++ .rel x :: post → x ∈ live pre

theorem live_snoc (tr : List Ev) (e : Ev) : live (tr ++ [e]) = match e with
    | .got x => x :: live tr
    | .rel x => (live tr).erase x
    | .dis => live tr := by
  unfold live; rw [List.foldl_append]; rfl

theorem run_snoc (s : St) (ops : List Op) (op : Op) : run s (ops ++ [op]) =
    ((call (run s ops).1 op).1, (run s ops).2 ++ [(call (run s ops).1 op).2]) := by
  induction ops generalizing s with
  | nil => rfl
  | cons o ops ih => simp only [List.cons_append, run, ih]

theorem run_length (s : St) (ops : List Op) : (run s ops).2.length = ops.length := by
  induction ops generalizing s with
  | nil => rfl
  | cons o ops ih => simp [run, ih]

theorem Legal.prefix {tr : List Ev} {e : Ev} (h : Legal (tr ++ [e])) : Legal tr := by
  intro pre x post he
  exact h pre x (post ++ [e]) (by rw [he]; simp)

/-- Ids released after `disable`. -/
def Lost (tr : List Ev) (x : Nat) : Prop := ∃ a b c, tr = a ++ .dis :: b ++ .rel x :: c

structure Inv (i0 : Nat) (s : St) (tr : List Ev) : Prop where
  nd : (live tr).Nodup
  fnd : s.free.Nodup
  disj : ∀ x ∈ live tr, x ∉ s.free
  lrange : ∀ x ∈ live tr, i0 ≤ x ∧ x < s.id
  frange : ∀ x ∈ s.free, i0 ≤ x ∧ x < s.id
  bound : s.id ≤ i0 + tr.length
  ge : i0 ≤ s.id
  en : s.enabled = true → .dis ∉ tr
  lost : ∀ x, Lost tr x → x ∉ live tr ∧ x ∉ s.free ∧ x < s.id
  noget : ∀ a b x c, tr = a ++ .dis :: b ++ .rel x :: c → .got x ∉ c

theorem Lost.mono {tr : List Ev} {x : Nat} (h : Lost tr x) (e : Ev) : Lost (tr ++ [e]) x := by
  obtain ⟨a, b, c, rfl⟩ := h
  exact ⟨a, b, c ++ [e], by simp⟩

theorem lost_snoc {tr : List Ev} {e : Ev} {x : Nat} (h : Lost (tr ++ [e]) x) :
    Lost tr x ∨ (e = .rel x ∧ .dis ∈ tr) := by
  obtain ⟨a, b, c, h⟩ := h
  rcases List.eq_nil_or_concat c with rfl | ⟨c', y, rfl⟩
  · right
    have := List.append_inj_right' h rfl
    have h2 := List.append_inj_left' h rfl
    injection this with this
    exact ⟨this, by rw [h2]; simp⟩
  · left
    refine ⟨a, b, c', ?_⟩
    have h' : tr ++ [e] = (a ++ .dis :: b ++ .rel x :: c') ++ [y] := by rw [h]; simp
    exact List.append_inj_left' h' rfl

theorem run_inv (i0 : Nat) (ops : List Op) (hb : i0 + ops.length < 2 ^ 64)
    (hl : Legal (run (init i0) ops).2) : Inv i0 (run (init i0) ops).1 (run (init i0) ops).2 := by
  induction ops using List.reverseRecOn with
  | nil =>
    refine ⟨by simp [run, live], by simp [run, init], by simp [run, live], by simp [run, live],
      by simp [run, init], by simp [run, init], by simp [run, init], by simp [run], ?_, ?_⟩
    · rintro x ⟨a, b, c, h⟩
      simp [run] at h
    · intro a b x c h
      simp [run] at h
  | append_singleton ops op ih =>
    have hlen := run_length (init i0) ops
    rw [run_snoc] at hl
    have I := ih (by simp at hb; omega) hl.prefix
    rw [run_snoc]
    simp only
    generalize hs : (run (init i0) ops).1 = s at *
    generalize ht : (run (init i0) ops).2 = tr at *
    simp only [List.length_append, List.length_singleton] at hb
    have hbound := I.bound
    -- an event after which the trace cannot hand out a lost id
    have noget : ∀ e, (∀ x, e = .got x → ¬ Lost tr x) → ∀ a b x c,
        tr ++ [e] = a ++ .dis :: b ++ .rel x :: c → .got x ∉ c := by
      intro e hlost a b x c h
      rcases List.eq_nil_or_concat c with rfl | ⟨c', y, rfl⟩
      · simp
      · have h' : tr ++ [e] = (a ++ .dis :: b ++ .rel x :: c') ++ [y] := by rw [h]; simp
        have h1 := List.append_inj_left' h' rfl
        have h2 := List.append_inj_right' h' rfl
        injection h2 with h2
        subst h2
        intro hm
        rw [List.concat_eq_append, List.mem_append, List.mem_singleton] at hm
        rcases hm with hm | hm
        · exact I.noget a b x c' h1 hm
        · exact hlost x hm.symm ⟨a, b, c', h1⟩
    cases op with
    | get =>
      simp only [call] at hl ⊢
      cases hf : s.free with
      | nil =>
        have hid : (s.id + 1) % 2 ^ 64 = s.id + 1 := Nat.mod_eq_of_lt (by omega)
        simp only [getId, hf, hid]
        have hnl : s.id ∉ live tr := fun h => by have := (I.lrange _ h).2; omega
        refine ⟨?_, by simp [hf], ?_, ?_, by simp [hf], by simp; omega, by have := I.ge; simp only; omega,
          ?_, ?_, noget _ ?_⟩
        · rw [live_snoc]
          exact List.nodup_cons.2 ⟨hnl, I.nd⟩
        · simp [hf]
        · rw [live_snoc]
          intro x hx
          have := I.ge
          rcases List.mem_cons.1 hx with rfl | hx
          · simp only; omega
          · have := I.lrange x hx; simp only; omega
        · intro he
          have := I.en he
          simp [this]
        · intro x hx
          rcases lost_snoc hx with hx | hx
          · have := I.lost x hx
            rw [live_snoc]
            refine ⟨?_, by simp [hf], by simp only; omega⟩
            simp only [List.mem_cons, not_or]
            exact ⟨by omega, this.1⟩
          · cases hx.1
        · intro x hx hlost
          injection hx with hx
          have := (I.lost x hlost).2.2
          omega
      | cons y ys =>
        simp only [getId, hf]
        have hfn := I.fnd
        rw [hf] at hfn
        obtain ⟨hy1, hy2⟩ := List.nodup_cons.1 hfn
        have hyf : y ∈ s.free := by rw [hf]; simp
        have hnl : y ∉ live tr := fun h => I.disj y h hyf
        have hyr := I.frange y hyf
        refine ⟨?_, hy2, ?_, ?_, ?_, by simp; omega, I.ge, ?_, ?_, noget _ ?_⟩
        · rw [live_snoc]
          exact List.nodup_cons.2 ⟨hnl, I.nd⟩
        · rw [live_snoc]
          intro x hx
          rcases List.mem_cons.1 hx with rfl | hx
          · exact hy1
          · have := I.disj x hx
            rw [hf] at this
            exact fun h => this (List.mem_cons_of_mem _ h)
        · rw [live_snoc]
          intro x hx
          rcases List.mem_cons.1 hx with rfl | hx
          · exact hyr
          · exact I.lrange x hx
        · intro x hx
          exact I.frange x (by rw [hf]; exact List.mem_cons_of_mem _ hx)
        · intro he
          have := I.en he
          simp [this]
        · intro x hx
          rcases lost_snoc hx with hx | hx
          · have := I.lost x hx
            rw [live_snoc]
            rw [hf] at this
            have h2 := this.2.1
            simp only [List.mem_cons, not_or] at h2 ⊢
            exact ⟨⟨h2.1, this.1⟩, h2.2, this.2.2⟩
          · cases hx.1
        · intro x hx hlost
          injection hx with hx
          subst hx
          exact (I.lost _ hlost).2.1 hyf
    | release y =>
      simp only [call] at hl ⊢
      have hy : y ∈ live tr := hl tr y [] rfl
      have hyr := I.lrange y hy
      have hyf := I.disj y hy
      have hsub : ∀ x, x ∈ (live tr).erase y → x ∈ live tr ∧ x ≠ y := by
        intro x hx
        refine ⟨List.mem_of_mem_erase hx, ?_⟩
        rintro rfl
        exact (List.Nodup.not_mem_erase I.nd) hx
      have hnog : ∀ x, Ev.rel y = .got x → ¬ Lost tr x := by intro x hx; cases hx
      cases he : s.enabled with
      | true =>
        have hdis := I.en he
        have hnolost : ∀ x, ¬ Lost tr x := by
          rintro x ⟨a, b, c, rfl⟩
          simp at hdis
        simp only [releaseId, he, if_true]
        refine ⟨?_, ?_, ?_, ?_, ?_, by simp; omega, I.ge, ?_, ?_, noget _ hnog⟩
        · rw [live_snoc]; exact I.nd.erase y
        · rw [List.nodup_append]
          exact ⟨I.fnd, List.nodup_singleton y, fun a ha b hb => by
            rw [List.mem_singleton] at hb
            rintro rfl
            subst hb
            exact hyf ha⟩
        · rw [live_snoc]
          intro x hx
          obtain ⟨h1, h2⟩ := hsub x hx
          simp only [List.mem_append, List.mem_singleton, not_or]
          exact ⟨I.disj x h1, h2⟩
        · rw [live_snoc]
          exact fun x hx => I.lrange x (hsub x hx).1
        · intro x hx
          rcases List.mem_append.1 hx with hx | hx
          · exact I.frange x hx
          · rw [List.mem_singleton] at hx
            subst hx
            exact hyr
        · simp [hdis]
        · intro x hx
          rcases lost_snoc hx with hx | hx
          · exact absurd hx (hnolost x)
          · exact absurd hx.2 hdis
      | false =>
        simp only [releaseId, he, Bool.false_eq_true, if_false]
        refine ⟨?_, I.fnd, ?_, ?_, I.frange, by simp; omega, I.ge, by simp [he], ?_, noget _ hnog⟩
        · rw [live_snoc]; exact I.nd.erase y
        · rw [live_snoc]
          exact fun x hx => I.disj x (hsub x hx).1
        · rw [live_snoc]
          exact fun x hx => I.lrange x (hsub x hx).1
        · intro x hx
          rw [live_snoc]
          rcases lost_snoc hx with hx | hx
          · have := I.lost x hx
            exact ⟨fun h => this.1 (hsub x h).1, this.2⟩
          · have hxy := hx.1
            injection hxy with hxy
            subst hxy
            exact ⟨fun h => (hsub _ h).2 rfl, hyf, hyr.2⟩
    | disable =>
      simp only [call, disable]
      refine ⟨?_, I.fnd, ?_, ?_, I.frange, by simp; omega, I.ge, by simp, ?_, noget _ ?_⟩
      · rw [live_snoc]; exact I.nd
      · rw [live_snoc]; exact I.disj
      · rw [live_snoc]; exact I.lrange
      · intro x hx
        rw [live_snoc]
        rcases lost_snoc hx with hx | hx
        · exact I.lost x hx
        · cases hx.1
      · intro x hx; cases hx

/-- **C23** In any sequence of `getId`, `releaseId` and `disable` calls (fewer than `2^64`) in which
only live ids are released, the live ids are pairwise distinct and smaller than `maxId()`. -/
theorem C23_unique (i0 : Nat) (ops : List Op) (hb : i0 + ops.length < 2 ^ 64)
    (hl : Legal (run (init i0) ops).2) :
    (live (run (init i0) ops).2).Nodup ∧
    ∀ x ∈ live (run (init i0) ops).2, i0 ≤ x ∧ x < maxId (run (init i0) ops).1 :=
  ⟨(run_inv i0 ops hb hl).nd, (run_inv i0 ops hb hl).lrange⟩

/-- **C23** An id released after `disable()` is never handed out again. -/
theorem C23_disable (i0 : Nat) (ops : List Op) (hb : i0 + ops.length < 2 ^ 64)
    (hl : Legal (run (init i0) ops).2) (a b c : List Ev) (x : Nat)
    (h : (run (init i0) ops).2 = a ++ .dis :: b ++ .rel x :: c) : .got x ∉ c :=
  (run_inv i0 ops hb hl).noget a b x c h

/-- Executable form of `Legal`. -/
def legalB (tr : List Ev) : Bool := (List.range tr.length).all fun i => match tr[i]? with
  | some (.rel x) => decide (x ∈ live (tr.take i))
  | _ => true

theorem legal_of_legalB {tr : List Ev} (h : legalB tr = true) : Legal tr := by
  intro pre x post he
  have := (List.all_eq_true.1 h) pre.length (by rw [he]; simp)
  rw [he] at this
  simpa using this

/-- Non-trivial instance: ids 1 and 2 are reused in the order of their release. -/
example : Legal (run (init 0) [.get, .get, .get, .release 1, .release 2, .get, .disable, .get, .release 0,
      .get]).2 ∧
    (run (init 0) [.get, .get, .get, .release 1, .release 2, .get, .disable, .get, .release 0, .get]).2 =
      [.got 0, .got 1, .got 2, .rel 1, .rel 2, .got 1, .dis, .got 2, .rel 0, .got 3] :=
  ⟨legal_of_legalB (by decide +kernel), by decide +kernel⟩

/-- An id that was released before `disable()` is handed out after it: the call stops the collection
of further ids only. -/
theorem C23_reuse_of_earlier_ids :
    (run (init 0) [.get, .release 0, .disable, .get]).2 = [.got 0, .rel 0, .dis, .got 0] := by
  decide +kernel

end IndexHandler

namespace ConcIndexHandler
open Conc
open ConcMap (upd_cases)

variable {n : Nat}

/-- Number of `getId` calls that returned `x`. -/
def gets (x : Nat) (h : List (Ev n Op Nat)) : Nat :=
  h.countP fun e => match e with
    | .res _ .get y => decide (y = x)
    | _ => false

/-- Number of calls of `releaseId(x)`. -/
def rels (x : Nat) (h : List (Ev n Op Nat)) : Nat :=
  h.countP fun e => match e with
    | .inv _ (.release y) => decide (y = x)
    | _ => false

/-- Only live ids are released: when `releaseId(x)` is called, `x` has been handed out more often than
it has been released. -/
def Legal (h : List (Ev n Op Nat)) : Prop :=
  ∀ pre t x post, h = pre ++ .inv t (.release x) :: post → rels x pre < gets x pre

/-- Number of calls of `getId`. -/
def calls (h : List (Ev n Op Nat)) : Nat :=
  h.countP fun e => match e with
    | .inv _ .get => true
    | _ => false

/-- Threads that will push `x`. -/
def pp (x : Nat) : Option (Active Loc Op) → Bool
  | some ⟨_, .push y, _⟩ => decide (y = x)
  | _ => false

/-- Threads that are about to increment the counter or still may. -/
def pg : Option (Active Loc Op) → Bool
  | some ⟨_, .tryPop, _⟩ => true
  | some ⟨_, .incr, _⟩ => true
  | _ => false

structure CInv (i0 : Nat) (c : Config n Shared Loc Op Nat) : Prop where
  loc : ∀ t A, c.th t = some A → match A.loc with
    | .tryPop | .incr => A.op = .get
    | .push x => A.op = .release x
  ge : i0 ≤ c.sh.id
  bound : c.sh.id + Conc.cnt pg c.th ≤ i0 + calls c.hist
  bal : ∀ x, gets x c.hist + Conc.cnt (pp x) c.th + c.sh.free.count x ≤
    (if i0 ≤ x ∧ x < c.sh.id then 1 else 0) + rels x c.hist
  pre : ∀ x p, p <+: c.hist → gets x p ≤ rels x p + 1

theorem prefix_snoc {α : Type} {p l : List α} {e : α} (h : p <+: l ++ [e]) :
    p <+: l ∨ p = l ++ [e] := by
  rcases List.prefix_concat_iff.1 h with h | h
  · exact Or.inr h
  · exact Or.inl h

theorem snoc_inv (h : List (Ev n Op Nat)) (t : Fin n) (op : Op) (x : Nat) :
    gets x (h ++ [.inv t op]) = gets x h ∧
    rels x (h ++ [.inv t op]) = rels x h + (if op = .release x then 1 else 0) ∧
    calls (h ++ [.inv t op]) = calls h + (if op = .get then 1 else 0) := by
  unfold gets rels calls
  simp only [List.countP_append, List.countP_singleton]
  cases op <;> simp

theorem snoc_res (h : List (Ev n Op Nat)) (t : Fin n) (op : Op) (r x : Nat) :
    gets x (h ++ [.res t op r]) = gets x h + (if op = .get ∧ r = x then 1 else 0) ∧
    rels x (h ++ [.res t op r]) = rels x h ∧ calls (h ++ [.res t op r]) = calls h := by
  unfold gets rels calls
  simp only [List.countP_append, List.countP_singleton]
  cases op <;> simp

theorem step_inv {i0 : Nat} {c c' : Config n Shared Loc Op Nat} (h : CInv i0 c)
    (hs : Step obj (fun _ => True) c c') (hb : i0 + calls c'.hist < 2 ^ 64) : CInv i0 c' := by
  cases hs with
  | call t op hidle hop =>
    have hpre : ∀ x p, p <+: c.hist ++ [.inv t op] → gets x p ≤ rels x p + 1 := by
      intro x p hp
      rcases prefix_snoc hp with hp | rfl
      · exact h.pre x p hp
      · have h1 := h.pre x c.hist (List.prefix_refl _)
        obtain ⟨e1, e2, _⟩ := snoc_inv c.hist t op x
        omega
    refine ⟨?_, h.ge, ?_, ?_, hpre⟩
    · intro u A hu
      replace hu := upd_cases hu
      rcases hu with ⟨rfl, hu⟩ | ⟨hne, hu⟩
      · injection hu with hu
        subst hu
        cases op <;> rfl
      · exact h.loc u A hu
    · simp only
      rw [(snoc_inv c.hist t op 0).2.2]
      have hbd := h.bound
      cases op with
      | get =>
        rw [cnt_update_add (p := pg) (by rw [hidle]; rfl) rfl]
        simp only [if_true]
        omega
      | release y =>
        rw [cnt_update_same (p := pg) (by rw [hidle]; rfl)]
        simpa using hbd
    · intro x
      simp only
      obtain ⟨e1, e2, _⟩ := snoc_inv c.hist t op x
      rw [e1, e2]
      have hbal := h.bal x
      cases op with
      | get =>
        rw [cnt_update_same (p := pp x) (by rw [hidle]; rfl)]
        simpa using hbal
      | release y =>
        by_cases hy : y = x
        · subst hy
          rw [cnt_update_add (p := pp y) (by rw [hidle]; rfl) (by simp [obj, start, pp])]
          simp only [if_true]
          omega
        · rw [cnt_update_same (p := pp x) (by rw [hidle]; simp [obj, start, pp, hy])]
          simpa [hy] using hbal
  | internal t A s' l' hth hstp =>
    obtain ⟨op, l, st⟩ := A
    have hl := h.loc t _ hth
    replace hstp : step c.sh l = some (s', .inl l') := hstp
    cases l with
    | tryPop =>
      simp only at hl
      subst hl
      cases hf : c.sh.free with
      | nil =>
        simp only [step, hf, Option.some.injEq, Prod.mk.injEq, Sum.inl.injEq] at hstp
        obtain ⟨rfl, rfl⟩ := hstp
        refine ⟨?_, h.ge, ?_, ?_, h.pre⟩
        · intro u B hu
          replace hu := upd_cases hu
          rcases hu with ⟨rfl, hu⟩ | ⟨hne, hu⟩
          · injection hu with hu
            subst hu
            rfl
          · exact h.loc u B hu
        · simp only
          rw [cnt_update_same (p := pg) (by rw [hth]; rfl)]
          exact h.bound
        · intro x
          simp only
          rw [cnt_update_same (p := pp x) (by rw [hth]; rfl)]
          exact h.bal x
      | cons y ys => simp [step, hf] at hstp
    | incr => simp [step] at hstp
    | push y => simp [step] at hstp
  | ret t A s' r hth hstp =>
    obtain ⟨op, l, st⟩ := A
    have hl := h.loc t _ hth
    replace hstp : step c.sh l = some (s', .inr r) := hstp
    have hloc : ∀ (u : Fin n) (B : Active Loc Op), Function.update c.th t none u = some B →
        match B.loc with
        | .tryPop | .incr => B.op = .get
        | .push x => B.op = .release x := by
      intro u B hu
      replace hu := upd_cases hu
      rcases hu with ⟨rfl, hu⟩ | ⟨hne, hu⟩
      · cases hu
      · exact h.loc u B hu
    have hpre : (∀ x, gets x (c.hist ++ [.res t op r]) ≤ rels x (c.hist ++ [.res t op r]) + 1) →
        ∀ x p, p <+: c.hist ++ [.res t op r] → gets x p ≤ rels x p + 1 := by
      intro hh x p hp
      rcases prefix_snoc hp with hp | rfl
      · exact h.pre x p hp
      · exact hh x
    have hbd := h.bound
    have hge := h.ge
    simp only at hb
    rw [(snoc_res c.hist t op r 0).2.2] at hb
    cases l with
    | tryPop =>
      simp only at hl
      subst hl
      cases hf : c.sh.free with
      | nil => simp [step, hf] at hstp
      | cons y ys =>
        simp only [step, hf, Option.some.injEq, Prod.mk.injEq, Sum.inr.injEq] at hstp
        obtain ⟨rfl, rfl⟩ := hstp
        have hcp := cnt_update_sub (p := pg) (f := c.th) (t := t) (x := none) (by rw [hth]; rfl) rfl
        have hbal' : ∀ x, gets x (c.hist ++ [.res t .get y]) +
            Conc.cnt (pp x) (Function.update c.th t none) + ys.count x ≤
            (if i0 ≤ x ∧ x < c.sh.id then 1 else 0) + rels x (c.hist ++ [.res t .get y]) := by
          intro x
          have hbal := h.bal x
          obtain ⟨e1, e2, _⟩ := snoc_res c.hist t .get y x
          rw [e1, e2, cnt_update_same (p := pp x) (by rw [hth]; rfl)]
          rw [hf, List.count_cons] at hbal
          simp only [beq_iff_eq, true_and] at hbal ⊢
          omega
        refine ⟨hloc, hge, ?_, hbal', hpre fun x => ?_⟩
        · simp only
          rw [(snoc_res c.hist t .get y 0).2.2]
          omega
        · have := hbal' x
          split at this <;> omega
    | incr =>
      simp only at hl
      subst hl
      simp only [step, Option.some.injEq, Prod.mk.injEq, Sum.inr.injEq] at hstp
      obtain ⟨rfl, rfl⟩ := hstp
      have hcp := cnt_update_sub (p := pg) (f := c.th) (t := t) (x := none) (by rw [hth]; rfl) rfl
      have hid : (c.sh.id + 1) % 2 ^ 64 = c.sh.id + 1 := Nat.mod_eq_of_lt (by omega)
      have hbal' : ∀ x, gets x (c.hist ++ [.res t .get c.sh.id]) +
          Conc.cnt (pp x) (Function.update c.th t none) + c.sh.free.count x ≤
          (if i0 ≤ x ∧ x < c.sh.id + 1 then 1 else 0) + rels x (c.hist ++ [.res t .get c.sh.id]) := by
        intro x
        have hbal := h.bal x
        obtain ⟨e1, e2, _⟩ := snoc_res c.hist t .get c.sh.id x
        rw [e1, e2, cnt_update_same (p := pp x) (by rw [hth]; rfl)]
        simp only [true_and]
        by_cases hx : c.sh.id = x
        · subst hx
          rw [if_neg (by omega)] at hbal
          rw [if_pos rfl, if_pos (by omega)]
          omega
        · rw [if_neg hx]
          by_cases hx2 : i0 ≤ x ∧ x < c.sh.id
          · rw [if_pos hx2] at hbal
            rw [if_pos (by omega)]
            omega
          · rw [if_neg hx2] at hbal
            omega
      refine ⟨hloc, by simp only [hid]; omega, ?_, by simpa only [hid] using hbal', hpre fun x => ?_⟩
      · simp only [hid]
        rw [(snoc_res c.hist t .get c.sh.id 0).2.2]
        omega
      · have := hbal' x
        split at this <;> omega
    | push y =>
      simp only at hl
      subst hl
      simp only [step, Option.some.injEq, Prod.mk.injEq, Sum.inr.injEq] at hstp
      obtain ⟨hs', rfl⟩ := hstp
      have hid : s'.id = c.sh.id := by rw [← hs']; split <;> rfl
      have hcount : ∀ x, s'.free.count x ≤ c.sh.free.count x + (if y = x then 1 else 0) := by
        intro x
        rw [← hs']
        split
        · simp only [List.count_append, List.count_singleton, beq_iff_eq]; omega
        · omega
      have hbal' : ∀ x, gets x (c.hist ++ [.res t (.release y) 0]) +
          Conc.cnt (pp x) (Function.update c.th t none) + s'.free.count x ≤
          (if i0 ≤ x ∧ x < c.sh.id then 1 else 0) + rels x (c.hist ++ [.res t (.release y) 0]) := by
        intro x
        have hbal := h.bal x
        have hcount := hcount x
        obtain ⟨e1, e2, _⟩ := snoc_res c.hist t (.release y) 0 x
        rw [e1, e2]
        simp only [reduceCtorEq, false_and, if_false]
        by_cases hx : y = x
        · subst hx
          have := cnt_update_sub (p := pp y) (f := c.th) (t := t) (x := none)
            (by rw [hth]; simp [pp]) rfl
          rw [if_pos rfl] at hcount
          omega
        · rw [cnt_update_same (p := pp x) (by rw [hth]; simp [pp, hx])]
          rw [if_neg hx] at hcount
          omega
      refine ⟨hloc, by simp only [hid]; exact hge, ?_, by simpa only [hid] using hbal', hpre fun x => ?_⟩
      · simp only [hid]
        rw [(snoc_res c.hist t (.release y) 0 0).2.2,
          cnt_update_same (p := pg) (by rw [hth]; rfl)]
        exact hbd
      · have := hbal' x
        split at this <;> omega

theorem calls_mono {c c' : Config n Shared Loc Op Nat} (hs : Step obj (fun _ => True) c c') :
    calls c.hist ≤ calls c'.hist := by
  cases hs with
  | call t op => rw [(snoc_inv c.hist t op 0).2.2]; omega
  | internal => exact le_refl _
  | ret t A s' r => rw [(snoc_res c.hist t A.op r 0).2.2]

theorem reach_inv {i0 : Nat} {en : Bool} {c : Config n Shared Loc Op Nat}
    (h : Reach obj (fun _ => True) (init i0 en) c) : i0 + calls c.hist < 2 ^ 64 → CInv i0 c := by
  refine Reach.induct (P := fun c => i0 + calls c.hist < 2 ^ 64 → CInv i0 c) ?_ ?_ h
  · intro _
    refine ⟨by simp [Config.init], le_refl _, ?_, ?_, ?_⟩
    · rw [cnt_eq_zero (fun t => rfl)]
      simp [Config.init, init]
    · intro x
      rw [cnt_eq_zero (fun t => rfl)]
      simp [Config.init, init, gets]
    · intro x p hp
      simp only [Config.init, List.prefix_nil] at hp
      subst hp
      simp [gets]
  · intro c c' _ ih hs hb
    exact step_inv (ih (by have := calls_mono hs; omega)) hs hb

theorem countP_mid {α : Type} (p : α → Bool) (a : List α) (e : α) (b : List α) :
    (a ++ e :: b).countP p = a.countP p + (if p e then 1 else 0) + b.countP p := by
  rw [List.countP_append, List.countP_cons]; omega

theorem legal_le {h : List (Ev n Op Nat)} (hl : Legal h) (x : Nat) : ∀ p, p <+: h →
    rels x p ≤ gets x p := by
  intro p
  induction p using List.reverseRecOn with
  | nil => intro _; simp [rels]
  | append_singleton p e ih =>
    intro hp
    have hp' : p <+: h := (List.prefix_append p [e]).trans hp
    have h1 := ih hp'
    cases e with
    | res t op r =>
      obtain ⟨e1, e2, _⟩ := snoc_res p t op r x
      omega
    | inv t op =>
      obtain ⟨e1, e2, _⟩ := snoc_inv p t op x
      rw [e1, e2]
      split
      · rename_i ho
        subst ho
        obtain ⟨q, hq⟩ := hp
        have := hl p t x q (by rw [← hq]; simp)
        omega
      · omega

/-- **C24** With any number of threads concurrently allocating and releasing ids (fewer than `2^64`
allocations), in every interleaving in which only live ids are released: whenever the same id is
handed out by two calls of `getId`, a call of `releaseId` with this id happened in between. Hence two
live ids are never equal. -/
theorem C24_unique (i0 : Nat) (en : Bool) (c : Config n Shared Loc Op Nat)
    (h : Reach obj (fun _ => True) (init i0 en) c) (hb : i0 + calls c.hist < 2 ^ 64)
    (hl : Legal c.hist) (a b d : List (Ev n Op Nat)) (t u : Fin n) (x : Nat)
    (he : c.hist = a ++ .res t .get x :: b ++ .res u .get x :: d) :
    ∃ v, .inv v (.release x) ∈ b := by
  have I := reach_inv h hb
  have h1 := I.pre x (a ++ .res t .get x :: b ++ [.res u .get x]) ⟨d, by rw [he]; simp⟩
  have h2 := legal_le hl x a ⟨.res t .get x :: b ++ .res u .get x :: d, by rw [he]; simp⟩
  obtain ⟨e1, e2, _⟩ := snoc_res (a ++ .res t .get x :: b) u .get x x
  rw [e1, e2] at h1
  unfold gets rels at h1 h2
  rw [countP_mid, countP_mid] at h1
  simp only [and_self, if_true, Bool.false_eq_true, if_false] at h1
  by_contra hno
  have hz : b.countP (fun e => match e with
    | .inv _ (.release y) => decide (y = x)
    | _ => false) = 0 := by
    rw [List.countP_eq_zero]
    intro e hm
    split
    · rename_i v y
      intro hy
      have hy := of_decide_eq_true hy
      subst hy
      exact hno ⟨v, hm⟩
    · simp
  rw [hz] at h1
  simp only [decide_true, if_true] at h1
  omega

/-- Two threads allocate, one releases, and the id is reused by the other thread. -/
example : ∃ c, Reach (n := 2) obj (fun _ => True) (init 7 true) c ∧
    c.hist = [.inv 0 .get, .inv 1 .get, .res 1 .get 7, .res 0 .get 8, .inv 1 (.release 7),
      .inv 0 .get, .res 1 (.release 7) 0, .res 0 .get 7] :=
  exec_hist (ok := fun _ => true) (fun _ _ => trivial)
    (l := [.call 0 .get, .call 1 .get, .run 0, .run 1, .run 1, .run 0, .call 1 (.release 7),
      .call 0 .get, .run 1, .run 0])
    (by decide +kernel)

end ConcIndexHandler
end Verif
