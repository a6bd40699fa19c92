import Verif.Props.EdgeLoop
import Verif.Props.GrowingSolo
import Mathlib.Algebra.BigOperators.Group.Finset.Basic
import Mathlib.Algebra.Order.BigOperators.Group.Finset

/-!
# The edge extraction with one thread ends
-/
namespace Verif
namespace Edges
open Conc DC DC.Edge

variable {P : Nat}

/-- The ids a body still inserts fit into the keys of the sets. -/
def PcLt : Pc → Prop
  | .inf ks => ∀ k ∈ ks, k < 2 ^ 64
  | .run (.insV _ vs) => ∀ v ∈ vs, v < 2 ^ 64
  | _ => True

/-- Ids fit into the keys of the sets. -/
def IdsLt (T : Tri) : Prop := ∀ x, T.contains x = true → x < 2 ^ 64 ∧ ∀ v ∈ T.vs x, v < 2 ^ 64

theorem PcLt.pend {T : Tri} (hT : IdsOk T) (hL : IdsLt T) {l l' : Pc} {j : Bool} {k : Nat} (h : PcLt l) (ho : PcOk T l)
    (hp : Edges.pend T l = some (j, k, l')) : k < 2 ^ 64 ∧ PcLt l' := by
  cases l with
  | inf ks =>
    cases ks with
    | nil => cases hp
    | cons x ks =>
      cases hp
      exact ⟨h _ List.mem_cons_self, fun y hy => h y (List.mem_cons_of_mem _ hy)⟩
  | run l =>
    cases l with
    | insS x =>
      cases hp
      exact ⟨by rw [hT.1.id x ho]; exact (hL x ho).1, (hL x ho).2⟩
    | insV x vs =>
      cases vs with
      | nil => cases hp
      | cons v vs =>
        cases hp
        exact ⟨h _ List.mem_cons_self, fun y hy => h y (List.mem_cons_of_mem _ hy)⟩
    | _ => cases hp

theorem PcLt.quiet {T : Tri} {meets : Nat → Bool} {mks m : Nat → Nat} {l l0 : Pc} {fed : List Nat}
    (hp : Edges.pend T l = none) (hq : Edges.quiet T meets mks l = some (m, some l0, fed)) : PcLt l0 := by
  cases l with
  | inf ks => cases hq
  | run l =>
    simp only [Edges.quiet] at hq
    split at hq
    · cases hq
    · rename_i e' l'' fed' he
      simp only [Option.some.injEq, Prod.mk.injEq] at hq
      obtain ⟨_, h2, _⟩ := hq
      obtain ⟨l1, rfl, rfl⟩ := Option.map_eq_some_iff.1 h2
      cases l with
      | chk x => simp only [edgeStep] at he; split_ifs at he <;> cases he; trivial
      | setDone x => cases he; trivial
      | test x => simp only [edgeStep] at he; split_ifs at he <;> cases he; trivial
      | insS x => cases hp
      | insV x vs =>
        cases vs with
        | nil => cases he; trivial
        | cons v vs => cases hp
      | nb x ns =>
        cases ns with
        | nil => cases he
        | cons n ns => simp only [edgeStep] at he; split_ifs at he <;> cases he <;> trivial
      | setq x n ns => cases he; trivial
      | feed x n ns => cases he; trivial

/-- A step without an insertion is defined. -/
theorem quiet_some {T : Tri} {meets : Nat → Bool} {mks : Nat → Nat} {l : Pc} (h : PcOk T l) :
    ∃ r, quiet T meets mks l = some r := by
  cases l with
  | inf ks => exact ⟨_, rfl⟩
  | run l =>
    suffices hx : ∃ r, edgeStep T meets (nextMark T.mark) (nextMark (nextMark T.mark)) l ⟨mks, ∅, ∅⟩ = some r by
      obtain ⟨⟨e, l', fed⟩, hr⟩ := hx
      simp only [quiet, hr]
      exact ⟨_, rfl⟩
    cases l with
    | chk x =>
      simp only [edgeStep]
      split_ifs with h1 h2 h3
      · exact ⟨_, rfl⟩
      · exact ⟨_, rfl⟩
      · exact ⟨_, rfl⟩
      · exact absurd (Tri.contains_iff.1 (h h1)).1 h2
    | test x =>
      simp only [edgeStep]
      split_ifs <;> exact ⟨_, rfl⟩
    | insV x vs => cases vs <;> exact ⟨_, rfl⟩
    | nb x ns =>
      cases ns with
      | nil => exact ⟨_, rfl⟩
      | cons n ns =>
        simp only [edgeStep]
        split_ifs with h1 h2 h3
        · exact ⟨_, rfl⟩
        · exact ⟨_, rfl⟩
        · exact ⟨_, rfl⟩
        · exact absurd (Tri.contains_iff.1 (h n List.mem_cons_self h1)).1 h2
    | _ => exact ⟨_, rfl⟩

/-! ### Measure -/

/-- Weight of an item. -/
def itW (D : Nat) (T : Tri) : Option Nat → Nat
  | none => (Part.infIds D).length + (T.hull.map (itemW T)).sum + 2
  | some x => itemW T x

/-- Weight of a program point, where `U` are the simplices not yet queued. -/
def pcW (T : Tri) (U : Finset Nat) : Pc → Nat
  | .inf ks => ks.length + (T.hull.map (itemW T)).sum + 1
  | .run l => weight T U l

/-- Simplices of part `i` that are not yet queued. -/
def unqueued (Ts : Fin P → Tri) (mks : Fin P → Nat → Nat) (i : Fin P) : Finset Nat :=
  unq (Ts i) (nextMark (Ts i).mark) (mks i)

/-- Weight of the body of the thread. -/
def bodyW (Ts : Fin P → Tri) (mks : Fin P → Nat → Nat) : Option (Fin P × Pc) → Nat
  | none => 0
  | some (i, l) => pcW (Ts i) (unqueued Ts mks i) l

/-- Measure of the marks, items and the body. -/
def meas (D : Nat) (Ts : Fin P → Tri) (mks : Fin P → Nat → Nat) (work : List (Fin P × Option Nat))
    (b : Option (Fin P × Pc)) : Nat × Nat :=
  (∑ i, (unqueued Ts mks i).card, (work.map fun p => itW D (Ts p.1) p.2).sum + bodyW Ts mks b)

/-- The order of the measure. -/
abbrev Lt (x y : Nat × Nat) : Prop := Prod.Lex (· < ·) (· < ·) x y

theorem meas_take {D : Nat} {Ts : Fin P → Tri} {mks : Fin P → Nat → Nat} {work : List (Fin P × Option Nat)} {n : Nat}
    {i : Fin P} {it : Option Nat} (h : work[n]? = some (i, it)) :
    Lt (meas D Ts mks (work.eraseIdx n) (some (i, match it with | none => .inf (Part.infIds D) | some x => .run (.chk x))))
      (meas D Ts mks work none) := by
  obtain ⟨hn, hi⟩ := List.getElem?_eq_some_iff.1 h
  have hp := ((List.getElem_cons_eraseIdx_perm hn).map fun p => itW D (Ts p.1) p.2).sum_eq
  rw [hi, List.map_cons, List.sum_cons] at hp
  refine Prod.Lex.right _ ?_
  rw [← hp]
  cases it with
  | none =>
    simp only [bodyW, pcW, itW]
    omega
  | some x =>
    simp only [bodyW, pcW, itW, weight, itemW]
    omega

theorem meas_pend {D : Nat} {Ts : Fin P → Tri} {mks : Fin P → Nat → Nat} {work : List (Fin P × Option Nat)} {i : Fin P}
    {l l' : Pc} {j : Bool} {k : Nat} (hp : pend (Ts i) l = some (j, k, l')) :
    Lt (meas D Ts mks work (some (i, l'))) (meas D Ts mks work (some (i, l))) := by
  refine Prod.Lex.right _ (Nat.add_lt_add_left ?_ _)
  simp only [bodyW]
  cases l with
  | inf ks =>
    cases ks with
    | nil => cases hp
    | cons x ks =>
      cases hp
      simp only [pcW, List.length_cons]
      omega
  | run l =>
    cases l with
    | insS x =>
      cases hp
      simp only [pcW, weight]
      omega
    | insV x vs =>
      cases vs with
      | nil => cases hp
      | cons v vs =>
        cases hp
        simp only [pcW, weight, List.length_cons]
        omega
    | _ => cases hp

theorem meas_quiet {D : Nat} {Ts : Fin P → Tri} {meets : Nat → Bool} {mks : Fin P → Nat → Nat}
    {work : List (Fin P × Option Nat)} {i : Fin P} {l : Pc} {m : Nat → Nat} {l' : Option Pc} {fed : List Nat}
    (hm : (Ts i).mark + 2 < 256) (hq : quiet (Ts i) meets (mks i) l = some (m, l', fed)) :
    Lt (meas D Ts (Function.update mks i m) ((fed.map fun x => (i, some x)) ++ work) (l'.map fun l => (i, l)))
      (meas D Ts mks work (some (i, l))) := by
  have hself : ∀ m, unqueued Ts (Function.update mks i m) i = unq (Ts i) (nextMark (Ts i).mark) m := by
    intro m
    simp [unqueued]
  have hoth : ∀ m i', i' ≠ i → unqueued Ts (Function.update mks i m) i' = unqueued Ts mks i' := by
    intro m i' hi
    simp only [unqueued, Function.update_of_ne hi]
  have hsum : ∀ m, ∑ i', (unqueued Ts (Function.update mks i m) i').card =
      (unq (Ts i) (nextMark (Ts i).mark) m).card + ∑ i' ∈ Finset.univ.erase i, (unqueued Ts mks i').card := by
    intro m
    rw [← Finset.add_sum_erase _ _ (Finset.mem_univ i), hself]
    congr 1
    exact Finset.sum_congr rfl fun i' hi => by rw [hoth m i' (Finset.ne_of_mem_erase hi)]
  have hsum0 : ∑ i', (unqueued Ts mks i').card =
      (unq (Ts i) (nextMark (Ts i).mark) (mks i)).card + ∑ i' ∈ Finset.univ.erase i, (unqueued Ts mks i').card := by
    have := hsum (mks i)
    rwa [Function.update_eq_self] at this
  have hfed : ((fed.map fun x => ((i, some x) : Fin P × Option Nat)).map fun p => itW D (Ts p.1) p.2).sum =
      (fed.map (itemW (Ts i))).sum := by
    rw [List.map_map]
    rfl
  suffices hx : (unq (Ts i) (nextMark (Ts i).mark) m).card < (unq (Ts i) (nextMark (Ts i).mark) (mks i)).card ∨
      (unq (Ts i) (nextMark (Ts i).mark) m = unq (Ts i) (nextMark (Ts i).mark) (mks i) ∧
        (fed.map (itemW (Ts i))).sum + (l'.toList.map (pcW (Ts i) (unqueued Ts mks i))).sum <
          pcW (Ts i) (unqueued Ts mks i) l) by
    simp only [meas]
    rw [hsum, hsum0]
    rcases hx with hx | ⟨hx, hw⟩
    · exact Prod.Lex.left _ _ (by omega)
    · rw [hx]
      refine Prod.Lex.right _ ?_
      rw [List.map_append, List.sum_append, hfed]
      have hb : bodyW Ts (Function.update mks i m) (l'.map fun l => (i, l)) =
          (l'.toList.map (pcW (Ts i) (unqueued Ts mks i))).sum := by
        cases l' with
        | none => rfl
        | some l' =>
          simp only [Option.map_some, bodyW, hself, hx, Option.toList_some, List.map_cons, List.map_nil,
            List.sum_cons, List.sum_nil, add_zero]
          rfl
      rw [hb]
      simp only [bodyW]
      omega
  cases l with
  | inf ks =>
    simp only [quiet, Option.some.injEq, Prod.mk.injEq] at hq
    obtain ⟨rfl, rfl, rfl⟩ := hq
    right
    refine ⟨rfl, ?_⟩
    simp only [pcW, Option.toList_none, List.map_nil, List.sum_nil]
    omega
  | run l =>
    simp only [quiet] at hq
    split at hq
    · cases hq
    · rename_i e' l'' fed' he
      simp only [Option.some.injEq, Prod.mk.injEq] at hq
      obtain ⟨rfl, rfl, rfl⟩ := hq
      obtain ⟨e1, e2⟩ := nextMark_two hm
      rcases step_decreases (by omega) he with h | ⟨h1, h2⟩
      · exact Or.inl h
      · refine Or.inr ⟨h1, ?_⟩
        have : (((l''.map Pc.run).toList).map (pcW (Ts i) (unqueued Ts mks i))).sum =
            (l''.toList.map (weight (Ts i) (unq (Ts i) (nextMark (Ts i).mark) (mks i)))).sum := by
          cases l'' <;> rfl
        rw [this]
        exact h2

/-! ### States of one thread -/

/-- A set that nobody is using. -/
def SetOk (a : Nat) (s : Growing.Shared) : Prop :=
  s.hs.length = 1 ∧ ∃ p arr, Growing.Quiet1 a p s arr ∧ ∀ x ∈ arr, x < 2 ^ 64

/-- Between two insertions, or inside one, which will return. -/
def State (a : Nat) (Ts : Fin P → Tri) (s : Loop 1 P) : Prop :=
  match s.cur 0 with
  | none => ∀ j, (s.c j).th 0 = none ∧ SetOk a (s.c j).sh
  | some j => SetOk a (s.c (!j)).sh ∧ (s.c (!j)).th 0 = none ∧ ∃ A i l k l', (s.c j).th 0 = some A ∧
      s.body 0 = some (i, l) ∧ pend (Ts i) l = some (j, k, l') ∧ ∃ s' r, SetOk a s' ∧ Growing.Solo (s.c j).sh A.loc s' r

/-- The invariant of one thread. -/
structure Inv (D a n : Nat) (Ts : Fin P → Tri) (meets : Fin P → Nat → Bool) (s : Loop 1 P) : Prop where
  ex : ∃ e, EInv D a n Ts meets s e
  lt : ∀ i l, s.body 0 = some (i, l) → PcLt l
  st : State a Ts s

theorem inf_lt {D : Nat} (hD : D ≤ 64) : ∀ k ∈ Part.infIds D, k < 2 ^ 64 := by
  intro k hk
  have := Nat.pow_le_pow_right (n := 2) (by omega) hD
  simp only [Part.infIds, List.mem_range'_1, Part.cINF] at hk
  omega

theorem setOk_new {a size : Nat} (hs : 0 < size) : SetOk a (Growing.new a size 1) := by
  obtain ⟨p, hp⟩ := nextPow2_isPow hs
  refine ⟨by simp [Growing.new], p, _, Growing.quiet_new a size 1 p hp, fun x hx => ?_⟩
  rw [List.eq_of_mem_replicate hx]
  exact Nat.pow_pos (by omega)

theorem setOk_insert {a k : Nat} (ha : Odd a) (hk : k ≠ 0) (hk64 : k < 2 ^ 64) {s : Growing.Shared} (h : SetOk a s) :
    ∃ s' r, SetOk a s' ∧ Growing.Solo s (Growing.obj.start (.insert 0 k)) s' r := by
  obtain ⟨hl, p, arr, hq, h64⟩ := h
  obtain ⟨s', p', arr', h1, h2, h3, _, _, h6⟩ := Growing.insert_solo (q := 64) ha hk hk64 (hd := 0) _ p s arr le_rfl hq
    (by omega) h64
    (fun x hx _ e => by rwa [Nat.mod_eq_of_lt (h64 x hx), Nat.mod_eq_of_lt hk64] at e)
    (fun x hx y hy _ _ e => by rwa [Nat.mod_eq_of_lt (h64 x hx), Nat.mod_eq_of_lt (h64 y hy)] at e)
  refine ⟨s', _, ⟨by omega, p', arr', h1, fun x hx => ?_⟩, h6⟩
  by_cases hx0 : x = 0
  · subst hx0
    exact Nat.pow_pos (by omega)
  · rcases (h3 x hx0).1 hx with e | e
    · exact h64 x e
    · subst e
      exact hk64

theorem Inv.init {D a n : Nat} {Ts : Fin P → Tri} {meets : Fin P → Nat → Bool} (hn : 4 ≤ n) :
    Inv D a n Ts meets (Loop.init a n Ts) where
  ex := ⟨_, EInv.init⟩
  lt := by simp [Loop.init]
  st := by
    intro j
    refine ⟨rfl, setOk_new ?_⟩
    cases j <;> simp only [capacity] <;> omega

/-- What a step does: it is inside an insertion, begins one, or the measure decreases. -/
theorem Inv.step {D a n : Nat} {Ts : Fin P → Tri} {meets : Fin P → Nat → Bool} {s s' : Loop 1 P} {m : Nat} (hD : D < 64)
    (ha : Odd a) (hT : ∀ i, IdsOk (Ts i) ∧ IdsLt (Ts i)) (hm : ∀ i, (Ts i).mark + 2 < 256) (h : Inv D a n Ts meets s)
    (hs : s.next D Ts meets 0 m = some s') : Inv D a n Ts meets s' ∧
      (Lt (meas D Ts s'.mks s'.work (s'.body 0)) (meas D Ts s.mks s.work (s.body 0)) ∨
        ((s'.mks = s.mks ∧ s'.work = s.work ∧ s'.body = s.body) ∧ ∃ j A', s'.cur 0 = some j ∧ (s'.c j).th 0 = some A' ∧
          (s.cur 0 = none ∨ s.cur 0 = some j ∧ ∃ A, (s.c j).th 0 = some A ∧
            Growing.SStep ((s.c j).sh, A.loc) ((s'.c j).sh, A'.loc)))) := by
  obtain ⟨⟨e, he⟩, hlt, hst⟩ := h
  have hex := he.step hD (fun i => (hT i).1) hs
  unfold Loop.next at hs
  unfold State at hst
  cases hc : s.cur 0 with
  | some j =>
    rw [hc] at hs hst
    simp only at hs hst
    obtain ⟨ho1, ho2, A, i, l, k, l', hA, hb, hp, s1, r, hs1, s2, l2, hgo, hret⟩ := hst
    rw [hA, hb] at hs
    simp only at hs
    have hj : ∀ c, Function.update s.c j c (!j) = s.c (!j) := fun c => Function.update_of_ne (by cases j <;> simp) _ _
    split at hs
    · cases hs
    · rename_i sh lo hstep
      injection hs with hs
      subst hs
      refine ⟨⟨hex, hlt, ?_⟩, Or.inr ⟨⟨rfl, rfl, rfl⟩, j, ⟨A.op, lo, A.steps + 1⟩, hc, by simp, Or.inr ⟨rfl, A, hA, ?_⟩⟩⟩
      · unfold State
        rw [hc]
        simp only [hj, Function.update_self]
        refine ⟨ho1, ho2, _, i, l, k, l', rfl, hb, hp, s1, r, hs1, s2, l2, ?_, hret⟩
        rcases Relation.ReflTransGen.cases_head hgo with e | ⟨⟨w1, w2⟩, hw, hw2⟩
        · injection e with e1 e2
          rw [← e1, ← e2, hstep] at hret
          cases hret
        · have : (w1, w2) = (sh, lo) := by
            unfold Growing.SStep at hw
            simp only at hw
            rw [hstep] at hw
            simp only [Option.some.injEq, Prod.mk.injEq, Sum.inl.injEq] at hw
            rw [hw.1, hw.2]
          rw [this] at hw2
          exact hw2
      · unfold Growing.SStep
        simp only [Function.update_self]
        exact hstep
    · rename_i sh r' hstep
      injection hs with hs
      subst hs
      have hpc := (hlt i l hb).pend (hT i).1 (hT i).2 (he.key 0 i l hb) hp
      refine ⟨⟨hex, ?_, ?_⟩, Or.inl ?_⟩
      · intro i' l0 hb'
        simp only [Function.update_self, hp, Option.map_some, Option.some.injEq, Prod.mk.injEq] at hb'
        obtain ⟨_, rfl⟩ := hb'
        exact hpc.2
      · have hsh : sh = s1 := by
          rcases Relation.ReflTransGen.cases_head hgo with e | ⟨w, hw, _⟩
          · injection e with e1 e2
            rw [← e1, ← e2, hstep] at hret
            simp only [Option.some.injEq, Prod.mk.injEq] at hret
            exact hret.1
          · unfold Growing.SStep at hw
            simp only at hw
            rw [hstep] at hw
            cases hw
        unfold State
        simp only [Function.update_self]
        intro j'
        by_cases hjj : j' = j
        · subst hjj
          simp only [Function.update_self]
          exact ⟨trivial, hsh ▸ hs1⟩
        · obtain rfl : j' = !j := by cases j <;> cases j' <;> simp_all
          rw [hj]
          exact ⟨ho2, ho1⟩
      · simp only [Function.update_self, hp, Option.map_some, hb]
        exact meas_pend hp
  | none =>
    rw [hc] at hs hst
    simp only at hs hst
    cases hb : s.body 0 with
    | none =>
      rw [hb] at hs
      simp only at hs
      split at hs
      · cases hs
      · rename_i i it hit
        injection hs with hs
        subst hs
        refine ⟨⟨hex, ?_, ?_⟩, Or.inl ?_⟩
        · intro i' l0 hb'
          simp only [Function.update_self, Option.some.injEq, Prod.mk.injEq] at hb'
          obtain ⟨_, rfl⟩ := hb'
          cases it with
          | none => exact inf_lt (by omega)
          | some x => trivial
        · unfold State
          simp only [hc]
          exact hst
        · simp only [Function.update_self]
          cases it with
          | none => exact meas_take hit
          | some x => exact meas_take hit
    | some il =>
      obtain ⟨i, l⟩ := il
      rw [hb] at hs
      simp only at hs
      split at hs
      · rename_i j k l' hp
        injection hs with hs
        subst hs
        have hk := ((he.key 0 i l hb).pend (hT i).1 hp).1
        have hk2 := ((hlt i l hb).pend (hT i).1 (hT i).2 (he.key 0 i l hb) hp).1
        refine ⟨⟨hex, hlt, ?_⟩, Or.inr ⟨⟨rfl, rfl, rfl⟩, j, _, by simp, by simp only [Function.update_self]; rfl, Or.inl rfl⟩⟩
        unfold State
        simp only [Function.update_self]
        have hj : ∀ c, Function.update s.c j c (!j) = s.c (!j) := fun c => Function.update_of_ne (by cases j <;> simp) _ _
        rw [hj]
        refine ⟨(hst (!j)).2, (hst (!j)).1, _, i, l, k, l', rfl, hb, hp, ?_⟩
        exact setOk_insert ha hk hk2 (hst j).2
      · rename_i hp
        split at hs
        · cases hs
        · rename_i mk l' fed hq
          injection hs with hs
          subst hs
          refine ⟨⟨hex, ?_, ?_⟩, Or.inl ?_⟩
          · intro i' l0 hb'
            simp only [Function.update_self] at hb'
            obtain ⟨l1, rfl, h1⟩ := Option.map_eq_some_iff.1 hb'
            injection h1 with h1 h2
            subst h2
            exact PcLt.quiet hp hq
          · unfold State
            simp only [hc]
            exact hst
          · simp only [Function.update_self]
            exact meas_quiet (hm i) hq

/-- A state that is not final can continue. -/
theorem Inv.progress {D a n : Nat} {Ts : Fin P → Tri} {meets : Fin P → Nat → Bool} {s : Loop 1 P}
    (h : Inv D a n Ts meets s) : s.final ∨ ∃ m s', s.next D Ts meets 0 m = some s' := by
  obtain ⟨⟨e, he⟩, hlt, hst⟩ := h
  unfold State at hst
  cases hc : s.cur 0 with
  | some j =>
    rw [hc] at hst
    simp only at hst
    obtain ⟨ho1, ho2, A, i, l, k, l', hA, hb, hp, s1, r, hs1, s2, l2, hgo, hret⟩ := hst
    right
    refine ⟨0, ?_⟩
    unfold Loop.next
    rw [hc]
    simp only
    rw [hA, hb]
    simp only
    rcases Relation.ReflTransGen.cases_head hgo with e | ⟨w, hw, _⟩
    · injection e with e1 e2
      rw [← e1, ← e2] at hret
      rw [hret]
      exact ⟨_, rfl⟩
    · unfold Growing.SStep at hw
      simp only at hw
      rw [hw]
      exact ⟨_, rfl⟩
  | none =>
    cases hb : s.body 0 with
    | none =>
      cases hw : s.work with
      | nil =>
        left
        refine ⟨hw, fun t => ?_⟩
        rw [Subsingleton.elim t 0]
        exact ⟨hc, hb⟩
      | cons p work =>
        right
        refine ⟨0, ?_⟩
        unfold Loop.next
        rw [hc]
        simp only
        rw [hb, hw]
        exact ⟨_, rfl⟩
    | some il =>
      obtain ⟨i, l⟩ := il
      right
      refine ⟨0, ?_⟩
      unfold Loop.next
      rw [hc]
      simp only
      rw [hb]
      simp only
      split
      · exact ⟨_, rfl⟩
      · obtain ⟨⟨m, l', fed⟩, hq⟩ := quiet_some (meets := meets i) (mks := s.mks i) (he.key 0 i l hb)
        rw [hq]
        exact ⟨_, rfl⟩

/-- No execution of one thread is infinite. -/
theorem Inv.acc {D a n : Nat} {Ts : Fin P → Tri} {meets : Fin P → Nat → Bool} (hD : D < 64) (ha : Odd a)
    (hT : ∀ i, IdsOk (Ts i) ∧ IdsLt (Ts i)) (hm : ∀ i, (Ts i).mark + 2 < 256) : ∀ s : Loop 1 P, Inv D a n Ts meets s →
    Acc (fun y x : Loop 1 P => Loop.Step D Ts meets x y) s := by
  suffices hx : ∀ (μ : Nat × Nat) (s : Loop 1 P), meas D Ts s.mks s.work (s.body 0) = μ → Inv D a n Ts meets s →
      Acc (fun y x : Loop 1 P => Loop.Step D Ts meets x y) s from fun s h => hx _ s rfl h
  intro μ
  induction μ using (Prod.lex Nat.lt_wfRel Nat.lt_wfRel).wf.induction with
  | _ μ ih =>
    -- inside an insertion
    have busy : ∀ (s2 : Growing.Shared) (l2 : Growing.Loc) (s1 : Growing.Shared) (r : ConcSet.SetRet),
        Growing.step s2 l2 = some (s1, .inr r) → ∀ x, Relation.ReflTransGen Growing.SStep x (s2, l2) →
        ∀ (s : Loop 1 P) j A, meas D Ts s.mks s.work (s.body 0) = μ → Inv D a n Ts meets s → s.cur 0 = some j →
          (s.c j).th 0 = some A → ((s.c j).sh, A.loc) = x → Acc (fun y x : Loop 1 P => Loop.Step D Ts meets x y) s := by
      intro s2 l2 s1 r hret x hx
      induction hx using Relation.ReflTransGen.head_induction_on with
      | refl =>
        intro s j A hμ hi hcur hA hsx
        refine Acc.intro s fun s' hs' => ?_
        obtain ⟨t, m, hs'⟩ := hs'
        rw [Subsingleton.elim t 0] at hs'
        obtain ⟨hi', hd | ⟨_, j', A', h1, h2, h3 | ⟨h3, A0, h4, h5⟩⟩⟩ := hi.step hD ha hT hm hs'
        · rw [hμ] at hd
          exact ih _ hd s' rfl hi'
        · rw [hcur] at h3
          cases h3
        · rw [hcur] at h3
          injection h3 with h3
          subst h3
          rw [hA] at h4
          injection h4 with h4
          subst h4
          unfold Growing.SStep at h5
          injection hsx with e1 e2
          simp only at h5
          rw [e1, e2, hret] at h5
          cases h5
      | @head x y hxy _ ih2 =>
        intro s j A hμ hi hcur hA hsx
        refine Acc.intro s fun s' hs' => ?_
        obtain ⟨t, m, hs'⟩ := hs'
        rw [Subsingleton.elim t 0] at hs'
        obtain ⟨hi', hd | ⟨⟨g1, g2, g3⟩, j', A', h1, h2, h3 | ⟨h3, A0, h4, h5⟩⟩⟩ := hi.step hD ha hT hm hs'
        · rw [hμ] at hd
          exact ih _ hd s' rfl hi'
        · rw [hcur] at h3
          cases h3
        · rw [hcur] at h3
          injection h3 with h3
          subst h3
          rw [hA] at h4
          injection h4 with h4
          subst h4
          refine ih2 s' j A' (by rw [g1, g2, g3]; exact hμ) hi' h1 h2 ?_
          unfold Growing.SStep at h5 hxy
          rw [hsx, hxy] at h5
          simp only [Option.some.injEq, Prod.mk.injEq, Sum.inl.injEq] at h5
          ext1
          · exact h5.1.symm
          · exact h5.2.symm
    have all : ∀ (s : Loop 1 P) j, s.cur 0 = some j → meas D Ts s.mks s.work (s.body 0) = μ → Inv D a n Ts meets s →
        Acc (fun y x : Loop 1 P => Loop.Step D Ts meets x y) s := by
      intro s j hcur hμ hi
      have := hi.st
      unfold State at this
      rw [hcur] at this
      obtain ⟨_, _, A, i, l, k, l', hA, hb, hp, s1, r, hs1, s2, l2, hgo, hret⟩ := this
      exact busy s2 l2 s1 r hret _ hgo s j A hμ hi hcur hA rfl
    intro s hμ hi
    cases hcur : s.cur 0 with
    | some j => exact all s j hcur hμ hi
    | none =>
      refine Acc.intro s fun s' hs' => ?_
      obtain ⟨t, m, hs'⟩ := hs'
      rw [Subsingleton.elim t 0] at hs'
      obtain ⟨hi', hd | ⟨⟨g1, g2, g3⟩, j', A', h1, _⟩⟩ := hi.step hD ha hT hm hs'
      · rw [hμ] at hd
        exact ih _ hd s' rfl hi'
      · exact all s' j' h1 (by rw [g1, g2, g3]; exact hμ) hi'

theorem Inv.steps {D a n : Nat} {Ts : Fin P → Tri} {meets : Fin P → Nat → Bool} {s s' : Loop 1 P} (hD : D < 64)
    (ha : Odd a) (hT : ∀ i, IdsOk (Ts i) ∧ IdsLt (Ts i)) (hm : ∀ i, (Ts i).mark + 2 < 256) (h : Inv D a n Ts meets s)
    (hs : Relation.ReflTransGen (Loop.Step D Ts meets) s s') : Inv D a n Ts meets s' := by
  induction hs with
  | refl => exact h
  | tail _ h1 ih =>
    obtain ⟨t, m, h1⟩ := h1
    rw [Subsingleton.elim t 0] at h1
    exact (ih.step hD ha hT hm h1).1

theorem Inv.finish {D a n : Nat} {Ts : Fin P → Tri} {meets : Fin P → Nat → Bool} (hD : D < 64) (ha : Odd a)
    (hT : ∀ i, IdsOk (Ts i) ∧ IdsLt (Ts i)) (hm : ∀ i, (Ts i).mark + 2 < 256) (s : Loop 1 P) (h : Inv D a n Ts meets s) :
    ∃ s', Relation.ReflTransGen (Loop.Step D Ts meets) s s' ∧ s'.final := by
  induction Inv.acc hD ha hT hm s h with
  | intro s _ ih =>
    rcases h.progress with hf | ⟨m, s1, h1⟩
    · exact ⟨s, .refl, hf⟩
    · obtain ⟨s2, h2, h3⟩ := ih s1 ⟨0, m, h1⟩ (h.step hD ha hT hm h1).1
      exact ⟨s2, .head ⟨0, m, h1⟩ h2, h3⟩

end Edges
end Verif
