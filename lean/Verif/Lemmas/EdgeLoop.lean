import Verif.Model.EdgeLoop
import Verif.Props.Distribute
import Verif.Props.Edge
import Mathlib.Data.Finset.Union
import Mathlib.Data.Fintype.Basic
import Mathlib.Data.Multiset.MapFold
import Mathlib.Data.Multiset.Filter

/-!
# The edge extraction with growing sets performs the loops of `Verif.Model.DC`

Every set of ids acknowledged by the growing sets can be attributed to the parts such that the state of each part,
together with its attributed ids, is reachable in the loop of `Verif.Model.DC`.
-/
namespace Verif
namespace Edges
open Conc DC

variable {N P : Nat}

/-! ### A whole call as one program -/

/-- Add an id to the points (`true`) or to the simplices. -/
def add (j : Bool) (k : Nat) (e : EdgeSt) : EdgeSt :=
  if j then { e with pts := insert k e.pts } else { e with simps := insert k e.simps }

/-- A call of `getEdge` with sets that do not lose anything: the item `none` is the call itself. -/
def callProg (D : Nat) (T : Tri) (meets : Nat → Bool) : Work.Prog EdgeSt Pc (Option Nat) where
  init := fun it => match it with
    | none => .inf (Part.infIds D)
    | some x => .run (.chk x)
  step := fun l e => match l with
    | .inf [] => some (e, none, T.hull.map some)
    | .inf (k :: ks) => some (add true k e, some (.inf ks), [])
    | .run l =>
      match edgeStep T meets (nextMark T.mark) (nextMark (nextMark T.mark)) l e with
      | none => none
      | some (e', l', fed) => some (e', l'.map Pc.run, fed.map some)

theorem step_pend {D : Nat} {T : Tri} {meets : Nat → Bool} {l l' : Pc} {j : Bool} {k : Nat} (e : EdgeSt)
    (h : pend T l = some (j, k, l')) : (callProg D T meets).step l e = some (add j k e, some l', []) := by
  cases l with
  | inf ks =>
    cases ks with
    | nil => cases h
    | cons x ks =>
      cases h
      rfl
  | run l =>
    cases l with
    | insS x =>
      cases h
      rfl
    | insV x vs =>
      cases vs with
      | nil => cases h
      | cons v vs =>
        cases h
        rfl
    | _ => cases h

theorem step_quiet {D : Nat} {T : Tri} {meets : Nat → Bool} {l : Pc} {e : EdgeSt} {m : Nat → Nat} {l' : Option Pc}
    {fed : List Nat} (h : pend T l = none) (hq : quiet T meets e.mks l = some (m, l', fed)) :
    (callProg D T meets).step l e = some ({ e with mks := m }, l', fed.map some) := by
  cases l with
  | inf ks =>
    cases ks with
    | nil =>
      cases hq
      rfl
    | cons x ks => cases h
  | run l =>
    simp only [quiet] at hq
    split at hq
    · cases hq
    · rename_i e' l'' fed' he
      cases hq
      have hs : edgeStep T meets (nextMark T.mark) (nextMark (nextMark T.mark)) l e =
          some ({ e with mks := e'.mks }, l'', fed) := by
        cases l with
        | chk x =>
          simp only [edgeStep] at he ⊢
          split_ifs at he ⊢ <;> cases he <;> rfl
        | setDone x =>
          cases he
          rfl
        | test x =>
          simp only [edgeStep] at he ⊢
          split_ifs at he ⊢ <;> cases he <;> rfl
        | insS x => cases h
        | insV x vs =>
          cases vs with
          | nil =>
            cases he
            rfl
          | cons v vs => cases h
        | nb x ns =>
          cases ns with
          | nil =>
            cases he
            rfl
          | cons n ns =>
            simp only [edgeStep] at he ⊢
            split_ifs at he ⊢ <;> cases he <;> rfl
        | setq x n ns =>
          cases he
          rfl
        | feed x n ns =>
          cases he
          rfl
      simp only [callProg, hs]

/-- A finished call has performed the loop of `Verif.Model.DC`. -/
theorem call_reach {D : Nat} {T : Tri} {meets : Nat → Bool} {c : Work.Cfg EdgeSt Pc (Option Nat)}
    (h : Work.Reach (callProg D T meets) ⟨T.mks, ∅, ∅⟩ {none} c) :
    c = ⟨⟨T.mks, ∅, ∅⟩, {none}, 0⟩ ∨
    (∃ ks pts, c = ⟨⟨T.mks, ∅, pts⟩, 0, {.inf ks}⟩ ∧ pts ∪ ks.toFinset = (Part.infIds D).toFinset) ∨
    ∃ q act, c.queue = q.map some ∧ c.act = act.map Pc.run ∧
      Work.Reach (edgeProg T meets) (edgeStart D T) (T.hull : Multiset Nat) ⟨c.sh, q, act⟩ := by
  classical
  induction h with
  | refl => exact Or.inl rfl
  | tail _ hs ih =>
    cases hs with
    | start sh i q act =>
      rcases ih with e | ⟨ks, pts, e, _⟩ | ⟨q', act', h1, h2, h3⟩
      · injection e with e1 e2 e3
        have : i ::ₘ q = none ::ₘ 0 := e2
        have hc := congrArg Multiset.card this
        simp only [Multiset.card_cons, Multiset.card_zero] at hc
        obtain rfl : q = 0 := Multiset.card_eq_zero.1 (by omega)
        have hi : i ∈ (none ::ₘ 0 : Multiset (Option Nat)) := this ▸ Multiset.mem_cons_self i 0
        obtain rfl : i = none := by simpa using hi
        subst e1 e3
        exact Or.inr (Or.inl ⟨Part.infIds D, ∅, rfl, by simp⟩)
      · injection e with e1 e2 e3
        exact absurd e2 (Multiset.cons_ne_zero)
      · simp only at h1 h2
        obtain ⟨x, hx, rfl, hq⟩ := (Multiset.map_eq_cons _ _ _ _).2 h1.symm
        refine Or.inr (Or.inr ⟨q'.erase x, .chk x ::ₘ act', hq.symm, by simp [h2, callProg], ?_⟩)
        refine h3.tail ?_
        have := Work.Step.start (P := edgeProg T meets) sh x (q'.erase x) act'
        rwa [Multiset.cons_erase hx] at this
    | run sh q l act sh' l' fed hst =>
      rcases ih with e | ⟨ks, pts, e, hks⟩ | ⟨q', act', h1, h2, h3⟩
      · injection e with e1 e2 e3
        exact absurd e3 (Multiset.cons_ne_zero)
      · injection e with e1 e2 e3
        have hc := congrArg Multiset.card e3
        simp only [Multiset.card_cons, Multiset.card_singleton] at hc
        obtain rfl : act = 0 := Multiset.card_eq_zero.1 (by omega)
        have hi : l ∈ ({.inf ks} : Multiset Pc) := e3 ▸ Multiset.mem_cons_self l 0
        obtain rfl : l = .inf ks := by simpa using hi
        subst e1 e2
        cases ks with
        | nil =>
          simp only [callProg, Option.some.injEq, Prod.mk.injEq] at hst
          obtain ⟨rfl, rfl, rfl⟩ := hst
          refine Or.inr (Or.inr ⟨T.hull, 0, by simp, by simp, ?_⟩)
          have : pts = (Part.infIds D).toFinset := by simpa using hks
          subst this
          exact .refl
        | cons k ks =>
          simp only [callProg, Option.some.injEq, Prod.mk.injEq] at hst
          obtain ⟨rfl, rfl, rfl⟩ := hst
          refine Or.inr (Or.inl ⟨ks, insert k pts, by simp [add], ?_⟩)
          rw [← hks, List.toFinset_cons, Finset.insert_union, Finset.union_insert]
      · simp only at h1 h2
        obtain ⟨l0, hl0, rfl, ha⟩ := (Multiset.map_eq_cons _ _ _ _).2 h2.symm
        simp only [callProg] at hst
        split at hst
        · cases hst
        · rename_i e' l'' fed' he
          simp only [Option.some.injEq, Prod.mk.injEq] at hst
          obtain ⟨rfl, rfl, rfl⟩ := hst
          refine Or.inr (Or.inr ⟨(fed' : Multiset Nat) + q', (l''.toList : Multiset EdgeL) + act'.erase l0, ?_, ?_, ?_⟩)
          · simp [h1]
          · rw [← ha]
            cases l'' <;> simp
          · refine h3.tail ?_
            have := Work.Step.run (P := edgeProg T meets) sh q' l0 (act'.erase l0) e' l'' fed' he
            rwa [Multiset.cons_erase hl0] at this

theorem call_final {D : Nat} {T : Tri} {meets : Nat → Bool} {e : EdgeSt}
    (h : Work.Reach (callProg D T meets) ⟨T.mks, ∅, ∅⟩ {none} ⟨e, 0, 0⟩) :
    Work.Final (edgeProg T meets) (edgeStart D T) (T.hull : Multiset Nat) e := by
  rcases call_reach h with h | ⟨ks, pts, h, _⟩ | ⟨q, act, h1, h2, h3⟩
  · injection h with _ h _
    exact absurd h.symm (Multiset.cons_ne_zero)
  · injection h with _ _ h
    exact absurd h.symm (Multiset.cons_ne_zero)
  · simp only at h1 h2
    obtain rfl : q = 0 := Multiset.map_eq_zero.1 h1.symm
    obtain rfl : act = 0 := Multiset.map_eq_zero.1 h2.symm
    exact h3

/-! ### The items and bodies of a part -/

/-- Items of part `i`. -/
def items (work : List (Fin P × Option Nat)) (i : Fin P) : Multiset (Option Nat) :=
  ((work.filter fun p => p.1 = i).map Prod.snd : List (Option Nat))

/-- Bodies of part `i`. -/
def bodies (body : Fin N → Option (Fin P × Pc)) (i : Fin P) : Multiset Pc :=
  (Finset.univ : Finset (Fin N)).val.filterMap fun u => (body u).bind fun p => if p.1 = i then some p.2 else none

theorem items_erase {work : List (Fin P × Option Nat)} {n : Nat} {i : Fin P} {it : Option Nat} (h : work[n]? = some (i, it))
    (i' : Fin P) : items work i' = if i = i' then it ::ₘ items (work.eraseIdx n) i' else items (work.eraseIdx n) i' := by
  obtain ⟨hn, hi⟩ := List.getElem?_eq_some_iff.1 h
  have hp := (List.getElem_cons_eraseIdx_perm hn).symm
  rw [hi] at hp
  have h2 := (hp.filter fun p => p.1 = i').map Prod.snd
  unfold items
  rw [Multiset.coe_eq_coe.2 h2]
  split_ifs with e
  · subst e
    simp
  · rw [List.filter_cons_of_neg (by simpa using e)]

theorem items_add (work : List (Fin P × Option Nat)) (i i' : Fin P) (fed : List Nat) :
    items ((fed.map fun x => (i, some x)) ++ work) i' =
      if i = i' then ((fed.map some : List (Option Nat)) : Multiset (Option Nat)) + items work i' else items work i' := by
  unfold items
  rw [List.filter_append, List.map_append, ← Multiset.coe_add]
  split_ifs with e
  · subst e
    congr 2
    rw [List.filter_eq_self.2 (by simp), List.map_map]
    rfl
  · have : (fed.map fun x => (i, some x)).filter (fun p : Fin P × Option Nat => decide (p.1 = i')) = [] := by
      simp [List.filter_eq_nil_iff, e]
    rw [this]
    simp

theorem bodies_update (body : Fin N → Option (Fin P × Pc)) (t : Fin N) (o : Option (Fin P × Pc)) (i : Fin P) :
    ∃ rest, bodies body i = (((body t).bind fun p => if p.1 = i then some p.2 else none).toList : Multiset Pc) + rest ∧
      bodies (Function.update body t o) i = ((o.bind fun p => if p.1 = i then some p.2 else none).toList : Multiset Pc) + rest := by
  have key : ∀ b : Fin N → Option (Fin P × Pc), bodies b i =
      (((b t).bind fun p => if p.1 = i then some p.2 else none).toList : Multiset Pc) +
        ((Finset.univ : Finset (Fin N)).erase t).val.filterMap fun u => (b u).bind fun p => if p.1 = i then some p.2 else none := by
    intro b
    have : (Finset.univ : Finset (Fin N)).val = t ::ₘ ((Finset.univ : Finset (Fin N)).erase t).val := by
      rw [Finset.erase_val, Multiset.cons_erase (Finset.mem_univ t)]
    unfold bodies
    rw [this, Multiset.filterMap_cons]
    congr 1
    cases (b t).bind fun p => if p.1 = i then some p.2 else none <;> rfl
  refine ⟨_, key body, ?_⟩
  rw [key, Function.update_self]
  congr 1
  have : ∀ s : Multiset (Fin N), t ∉ s → (s.filterMap fun u => (Function.update body t o u).bind fun p => if p.1 = i then some p.2 else none) =
      s.filterMap fun u => (body u).bind fun p => if p.1 = i then some p.2 else none := by
    intro s
    induction s using Multiset.induction_on with
    | empty => intro _; rfl
    | cons u s ih =>
      intro h
      rw [Multiset.mem_cons, not_or] at h
      rw [Multiset.filterMap_cons, Multiset.filterMap_cons, ih h.2, Function.update_of_ne (Ne.symm h.1)]
  exact this _ (Finset.notMem_erase t Finset.univ)

/-! ### The invariant -/

/-- The simplices a body works on are stored, and the ids it inserts are not zero. -/
def PcOk (T : Tri) : Pc → Prop
  | .inf ks => ∀ k ∈ ks, k ≠ 0
  | .run (.chk x) => x ≠ sINF → T.contains x = true
  | .run (.setDone x) => T.contains x = true
  | .run (.test x) => T.contains x = true
  | .run (.insS x) => T.contains x = true
  | .run (.insV x vs) => T.contains x = true ∧ ∀ v ∈ vs, v ≠ 0
  | .run (.nb _ ns) => ∀ n ∈ ns, n ≠ sINF → T.contains n = true
  | .run (.setq _ n ns) => T.contains n = true ∧ ∀ n ∈ ns, n ≠ sINF → T.contains n = true
  | .run (.feed _ n ns) => T.contains n = true ∧ ∀ n ∈ ns, n ≠ sINF → T.contains n = true

/-- Hull and neighbours are stored, ids of stored simplices and their vertices are not zero. -/
def IdsOk (T : Tri) : Prop := T.Wf ∧ ∀ x, T.contains x = true → x ≠ 0 ∧ ∀ v ∈ T.vs x, v ≠ 0

theorem PcOk.pend {T : Tri} (hT : IdsOk T) {l l' : Pc} {j : Bool} {k : Nat} (h : PcOk T l)
    (hp : pend T l = some (j, k, l')) : k ≠ 0 ∧ PcOk T l' := by
  cases l with
  | inf ks =>
    cases ks with
    | nil => cases hp
    | cons x ks =>
      cases hp
      exact ⟨h _ List.mem_cons_self, fun y hy => h y (List.mem_cons_of_mem _ hy)⟩
  | run l =>
    cases l with
    | insS x =>
      cases hp
      exact ⟨by rw [hT.1.id x h]; exact (hT.2 x h).1, h, (hT.2 x h).2⟩
    | insV x vs =>
      cases vs with
      | nil => cases hp
      | cons v vs =>
        cases hp
        exact ⟨h.2 _ List.mem_cons_self, h.1, fun y hy => h.2 y (List.mem_cons_of_mem _ hy)⟩
    | _ => cases hp

theorem PcOk.quiet {T : Tri} {meets : Nat → Bool} {mks m : Nat → Nat} {l : Pc} {l' : Option Pc} {fed : List Nat}
    (hT : IdsOk T) (h : PcOk T l) (hp : Edges.pend T l = none) (hq : quiet T meets mks l = some (m, l', fed)) :
    (∀ l0, l' = some l0 → PcOk T l0) ∧ ∀ y ∈ fed, y ≠ sINF → T.contains y = true := by
  cases l with
  | inf ks =>
    cases hq
    exact ⟨fun l0 h0 => (by cases h0), hT.1.hull⟩
  | run l =>
    simp only [Edges.quiet] at hq
    split at hq
    · cases hq
    · rename_i e' l'' fed' he
      simp only [Option.some.injEq, Prod.mk.injEq] at hq
      obtain ⟨_, rfl, rfl⟩ := hq
      suffices hx : (∀ l0, l'' = some l0 → PcOk T (.run l0)) ∧ ∀ y ∈ fed', y ≠ sINF → T.contains y = true by
        refine ⟨fun l0 h0 => ?_, hx.2⟩
        obtain ⟨l1, h1, rfl⟩ := Option.map_eq_some_iff.1 h0
        exact hx.1 l1 h1
      cases l with
      | chk x =>
        simp only [edgeStep] at he
        split_ifs at he with h1 h2 h3 <;> cases he
        · exact ⟨fun l0 h0 => (by cases h0), by simp⟩
        · exact ⟨fun l0 h0 => (by cases h0), by simp⟩
        · refine ⟨fun l0 h0 => ?_, by simp⟩
          cases h0
          exact h h1
      | setDone x =>
        cases he
        refine ⟨fun l0 h0 => ?_, by simp⟩
        cases h0
        exact h
      | test x =>
        simp only [edgeStep] at he
        split_ifs at he <;> cases he
        · refine ⟨fun l0 h0 => ?_, by simp⟩
          cases h0
          exact h
        · exact ⟨fun l0 h0 => (by cases h0), by simp⟩
      | insS x => cases hp
      | insV x vs =>
        cases vs with
        | nil =>
          cases he
          refine ⟨fun l0 h0 => ?_, by simp⟩
          cases h0
          exact hT.1.ns x h.1
        | cons v vs => cases hp
      | nb x ns =>
        cases ns with
        | nil =>
          cases he
          exact ⟨fun l0 h0 => (by cases h0), by simp⟩
        | cons n ns =>
          have h2 : ∀ n ∈ ns, n ≠ sINF → T.contains n = true := fun y hy => h y (List.mem_cons_of_mem _ hy)
          simp only [edgeStep] at he
          split_ifs at he with h1 <;> cases he <;> refine ⟨fun l0 h0 => ?_, by simp⟩ <;> cases h0
          · exact h2
          · exact ⟨h n List.mem_cons_self h1, h2⟩
          · exact h2
      | setq x n ns =>
        cases he
        refine ⟨fun l0 h0 => ?_, by simp⟩
        cases h0
        exact h
      | feed x n ns =>
        cases he
        refine ⟨fun l0 h0 => ?_, fun y hy _ => ?_⟩
        · cases h0
          exact h.2
        · rw [List.mem_singleton.1 hy]
          exact h.1

/-- Invariant of the extraction; `e j i` are the ids of set `j` attributed to part `i`. -/
structure EInv (D a n : Nat) (Ts : Fin P → Tri) (meets : Fin P → Nat → Bool) (s : Loop N P)
    (e : Bool → Fin P → Finset Nat) : Prop where
  exec : ∀ j, Growing.ReachExclusive (Growing.new a (capacity n j) N) (s.c j)
  reach : ∀ j, Reach Growing.obj (Growing.InsOp N) (Growing.new a (capacity n j) N) (s.c j)
  key : ∀ t i l, s.body t = some (i, l) → PcOk (Ts i) l
  wk : ∀ i x, (i, some x) ∈ s.work → x ≠ sINF → (Ts i).contains x = true
  th : ∀ j t A, (s.c j).th t = some A → s.cur t = some j ∧ ∃ i l k l', s.body t = some (i, l) ∧
    pend (Ts i) l = some (j, k, l') ∧ A.op = Growing.Op.insert t k
  call : ∀ j t o, Ev.inv t o ∈ (s.c j).hist → ∃ k, o = .insert t k ∧
    ((∃ i, k ∈ e j i) ∨ ∃ (u : Fin N) (A : Active Growing.Loc Growing.Op), (s.c j).th u = some A ∧ A.op = .insert u k)
  ack : ∀ j i k, k ∈ e j i → k ≠ 0 ∧ Growing.Acked (s.c j).hist k
  abs : ∀ i, Work.Reach (callProg D (Ts i) (meets i)) ⟨(Ts i).mks, ∅, ∅⟩ {none}
    ⟨⟨s.mks i, e false i, e true i⟩, items s.work i, bodies s.body i⟩

theorem EInv.init {D a n : Nat} {Ts : Fin P → Tri} {meets : Fin P → Nat → Bool} :
    EInv D a n Ts meets (Loop.init a n Ts : Loop N P) (fun _ _ => ∅) where
  exec := fun _ => .init
  reach := fun _ => .init
  key := by simp [Loop.init]
  wk := by simp [Loop.init]
  th := by simp [Loop.init, Config.init]
  call := by simp [Loop.init, Config.init]
  ack := by simp
  abs := by
    intro i
    have h1 : items (Loop.init a n Ts : Loop N P).work i = {none} := by
      have h2 : ((List.finRange P).map fun i => ((i, none) : Fin P × Option Nat)).filter (fun p => decide (p.1 = i)) =
          [(i, none)] := by
        rw [List.filter_map]
        have : (List.finRange P).filter ((fun p : Fin P × Option Nat => decide (p.1 = i)) ∘ fun i => (i, none)) = [i] := by
          have h3 := List.nodup_finRange P
          have h4 := List.mem_finRange i
          have h5 : ((fun p : Fin P × Option Nat => decide (p.1 = i)) ∘ fun i => (i, none)) = fun x => x == i := by
            funext x
            simp [Function.comp, BEq.beq]
          rw [h5, List.filter_beq, List.count_eq_one_of_mem h3 h4]
          rfl
        rw [this]
        rfl
      unfold items Loop.init
      rw [h2]
      rfl
    have h2 : bodies (Loop.init a n Ts : Loop N P).body i = 0 := by
      unfold bodies Loop.init
      simp only [Option.bind_none]
      induction (Finset.univ : Finset (Fin N)).val using Multiset.induction_on with
      | empty => rfl
      | cons u s ih => rw [Multiset.filterMap_cons_none _ _ rfl, ih]
    rw [h1, h2]
    exact .refl

/-- A step of the loop is a step of the program of its part. -/
theorem sim_run {D : Nat} {Ts : Fin P → Tri} {meets : Fin P → Nat → Bool} {m m' : Fin P → Nat → Nat}
    {e e' : Bool → Fin P → Finset Nat} {work : List (Fin P × Option Nat)} {body : Fin N → Option (Fin P × Pc)}
    {t : Fin N} {i : Fin P} {l : Pc} {l' : Option Pc} {fed : List Nat} (hb : body t = some (i, l))
    (hst : (callProg D (Ts i) (meets i)).step l ⟨m i, e false i, e true i⟩ =
      some (⟨m' i, e' false i, e' true i⟩, l', fed.map some))
    (ho : ∀ i', i' ≠ i → m' i' = m i' ∧ ∀ j, e' j i' = e j i')
    (habs : ∀ i, Work.Reach (callProg D (Ts i) (meets i)) ⟨(Ts i).mks, ∅, ∅⟩ {none}
      ⟨⟨m i, e false i, e true i⟩, items work i, bodies body i⟩) (i' : Fin P) :
    Work.Reach (callProg D (Ts i') (meets i')) ⟨(Ts i').mks, ∅, ∅⟩ {none}
      ⟨⟨m' i', e' false i', e' true i'⟩, items ((fed.map fun x => (i, some x)) ++ work) i',
        bodies (Function.update body t (l'.map fun l => (i, l))) i'⟩ := by
  obtain ⟨rest, h1, h2⟩ := bodies_update body t (l'.map fun l => (i, l)) i'
  rw [h2, items_add]
  have h3 := habs i'
  rw [h1, hb] at h3
  by_cases hi : i = i'
  · subst hi
    refine h3.tail ?_
    have := Work.Step.run _ (items work i) l rest _ _ _ hst
    simp only [Option.bind_some, if_true, Option.toList_some]
    cases l' <;> simpa using this
  · obtain ⟨h4, h5⟩ := ho i' (Ne.symm hi)
    have : ((l'.map fun l => (i, l)).bind fun p => if p.1 = i' then some p.2 else none) = none := by
      cases l' <;> simp [hi]
    rw [this, if_neg hi, h4, h5, h5]
    simpa [hi] using h3

theorem sim_start {D : Nat} {Ts : Fin P → Tri} {meets : Fin P → Nat → Bool} {m : Fin P → Nat → Nat}
    {e : Bool → Fin P → Finset Nat} {work : List (Fin P × Option Nat)} {body : Fin N → Option (Fin P × Pc)}
    {t : Fin N} {n : Nat} {i : Fin P} {it : Option Nat} {l : Pc} (hb : body t = none) (hw : work[n]? = some (i, it))
    (hl : (callProg D (Ts i) (meets i)).init it = l)
    (habs : ∀ i, Work.Reach (callProg D (Ts i) (meets i)) ⟨(Ts i).mks, ∅, ∅⟩ {none}
      ⟨⟨m i, e false i, e true i⟩, items work i, bodies body i⟩) (i' : Fin P) :
    Work.Reach (callProg D (Ts i') (meets i')) ⟨(Ts i').mks, ∅, ∅⟩ {none}
      ⟨⟨m i', e false i', e true i'⟩, items (work.eraseIdx n) i', bodies (Function.update body t (some (i, l))) i'⟩ := by
  obtain ⟨rest, h1, h2⟩ := bodies_update body t (some (i, l)) i'
  rw [h2]
  have h3 := habs i'
  rw [h1, hb, items_erase hw] at h3
  by_cases hi : i = i'
  · subst hi hl
    simp only [if_true, Option.bind_none, Option.toList_none, Multiset.coe_nil, zero_add] at h3
    refine h3.tail ?_
    simp only [Option.bind_some, if_true, Option.toList_some]
    exact Work.Step.start _ it _ rest
  · simpa [hi] using h3

theorem inf_ne {D : Nat} (hD : D < 64) : ∀ k ∈ Part.infIds D, k ≠ 0 := by
  intro k hk
  have := Nat.pow_lt_pow_right (a := 2) (by omega) hD
  simp only [Part.infIds, List.mem_range'_1, Part.cINF] at hk
  omega

/-- A step changes at most one set, by a step of that set. -/
theorem next_set {D a n : Nat} {Ts : Fin P → Tri} {meets : Fin P → Nat → Bool} {e : Bool → Fin P → Finset Nat}
    {s s' : Loop N P} {t : Fin N} {m : Nat} (hT : ∀ i, IdsOk (Ts i)) (h : EInv D a n Ts meets s e)
    (hs : s.next D Ts meets t m = some s') (j : Bool) :
    s'.c j = s.c j ∨ (Step Growing.obj (Growing.InsOp N) (s.c j) (s'.c j) ∧ ∀ u, u ≠ t → (s'.c j).th u = (s.c j).th u) := by
  unfold Loop.next at hs
  split at hs
  · rename_i i hi
    split at hs
    · rename_i A _ _ hA hb
      split at hs
      · cases hs
      · rename_i sh l hst
        injection hs with hs
        subst hs
        by_cases e : j = i
        · subst e
          refine Or.inr ?_
          simp only [Function.update_self]
          exact ⟨Step.internal _ t A sh l hA hst, fun u hu => Function.update_of_ne hu _ _⟩
        · exact Or.inl (Function.update_of_ne e _ _)
      · rename_i sh r hst
        injection hs with hs
        subst hs
        by_cases e : j = i
        · subst e
          refine Or.inr ?_
          simp only [Function.update_self]
          exact ⟨Step.ret _ t A sh r hA hst, fun u hu => Function.update_of_ne hu _ _⟩
        · exact Or.inl (Function.update_of_ne e _ _)
    · cases hs
  · rename_i hi
    split at hs
    · split at hs
      · cases hs
      · injection hs with hs
        subst hs
        exact Or.inl rfl
    · rename_i i l hb
      split at hs
      · rename_i j' k l' hp
        injection hs with hs
        subst hs
        by_cases e : j = j'
        · subst e
          refine Or.inr ?_
          simp only [Function.update_self]
          refine ⟨Step.call _ t (Growing.Op.insert t k) ?_ ⟨t, k, rfl, ((h.key t i l hb).pend (hT i) hp).1, t.isLt⟩,
            fun u hu => Function.update_of_ne hu _ _⟩
          cases hA : (s.c j).th t with
          | none => rfl
          | some A =>
            have := (h.th _ t A hA).1
            rw [hi] at this
            cases this
        · exact Or.inl (Function.update_of_ne e _ _)
      · split at hs
        · cases hs
        · injection hs with hs
          subst hs
          exact Or.inl rfl

/-- Every thread uses its own handles. -/
theorem exclusive {Ts : Fin P → Tri} {s : Loop N P} {j : Bool}
    (h : ∀ t A, (s.c j).th t = some A → s.cur t = some j ∧ ∃ i l k l', s.body t = some (i, l) ∧
      pend (Ts i) l = some (j, k, l') ∧ A.op = Growing.Op.insert t k) : Growing.Exclusive (s.c j) := by
  intro t u A B hA hB he
  obtain ⟨_, _, _, x, _, _, _, h1⟩ := h t A hA
  obtain ⟨_, _, _, y, _, _, _, h2⟩ := h u B hB
  rw [h1, h2] at he
  exact Fin.ext he

theorem EInv.step {D a n : Nat} {Ts : Fin P → Tri} {meets : Fin P → Nat → Bool} {e : Bool → Fin P → Finset Nat}
    {s s' : Loop N P} {t : Fin N} {m : Nat} (hD : D < 64) (hT : ∀ i, IdsOk (Ts i)) (h : EInv D a n Ts meets s e)
    (hs : s.next D Ts meets t m = some s') : ∃ e', EInv D a n Ts meets s' e' := by
  have hset := next_set hT h hs
  suffices hx : ∃ e : Bool → Fin P → Finset Nat, (∀ t i l, s'.body t = some (i, l) → PcOk (Ts i) l) ∧
      (∀ i x, (i, some x) ∈ s'.work → x ≠ sINF → (Ts i).contains x = true) ∧
      (∀ j t A, (s'.c j).th t = some A → s'.cur t = some j ∧ ∃ i l k l', s'.body t = some (i, l) ∧
        pend (Ts i) l = some (j, k, l') ∧ A.op = Growing.Op.insert t k) ∧
      (∀ j t o, Ev.inv t o ∈ (s'.c j).hist → ∃ k, o = .insert t k ∧
        ((∃ i, k ∈ e j i) ∨ ∃ (u : Fin N) (A : Active Growing.Loc Growing.Op), (s'.c j).th u = some A ∧ A.op = .insert u k)) ∧
      (∀ j i k, k ∈ e j i → k ≠ 0 ∧ Growing.Acked (s'.c j).hist k) ∧
      (∀ i, Work.Reach (callProg D (Ts i) (meets i)) ⟨(Ts i).mks, ∅, ∅⟩ {none}
        ⟨⟨s'.mks i, e false i, e true i⟩, items s'.work i, bodies s'.body i⟩) by
    obtain ⟨e, h1, hwk, h2, h3, h4, h5⟩ := hx
    refine ⟨e, fun j => ?_, fun j => ?_, h1, hwk, h2, h3, h4, h5⟩
    · rcases hset j with e | ⟨e, _⟩
      · rw [e]
        exact h.exec j
      · exact .step (h.exec j) (Dist.okKey e) (exclusive (h2 j))
    · rcases hset j with e | ⟨e, _⟩
      · rw [e]
        exact h.reach j
      · exact .step (h.reach j) e
  clear hset
  unfold Loop.next at hs
  split at hs
  · rename_i j hj
    split at hs
    · rename_i A i l hA hb
      obtain ⟨_, i', l0, k, l', hb', hp, hop⟩ := h.th j t A hA
      obtain ⟨rfl, rfl⟩ : i' = i ∧ l0 = l := by
        rw [hb] at hb'
        cases hb'
        exact ⟨rfl, rfl⟩
      clear hb'
      split at hs
      · cases hs
      · -- an access
        rename_i sh l1 hst
        injection hs with hs
        subst hs
        refine ⟨e, h.key, h.wk, fun j' u B hu => ?_, fun j' u o hu => ?_, fun j' i k hk => ?_, h.abs⟩
        · by_cases e : j' = j
          · subst e
            simp only [Function.update_self] at hu
            rcases ConcMap.upd_cases hu with ⟨rfl, hy⟩ | ⟨_, hy⟩
            · injection hy with hy
              subst hy
              exact h.th j' u A hA
            · exact h.th j' u B hy
          · simp only [Function.update_of_ne e] at hu
            exact h.th j' u B hu
        · by_cases e : j' = j
          · subst e
            simp only [Function.update_self] at hu ⊢
            obtain ⟨k, ho, h1⟩ := h.call j' u o hu
            refine ⟨k, ho, h1.imp id ?_⟩
            rintro ⟨v, B, h2, h3⟩
            by_cases e2 : v = t
            · subst e2
              rw [hA] at h2
              injection h2 with h2
              subst h2
              exact ⟨v, ⟨A.op, l1, A.steps + 1⟩, by simp, h3⟩
            · exact ⟨v, B, by simp only [Function.update_of_ne e2]; exact h2, h3⟩
          · simp only [Function.update_of_ne e] at hu ⊢
            exact h.call j' u o hu
        · by_cases e : j' = j
          · subst e
            simpa only [Function.update_self] using h.ack j' i k hk
          · simpa only [Function.update_of_ne e] using h.ack j' i k hk
      · -- an insertion returns
        rename_i sh r hst
        injection hs with hs
        subst hs
        obtain ⟨hk0, hok⟩ := (h.key t i' l0 hb).pend (hT i') hp
        refine ⟨fun j1 i1 => if j1 = j ∧ i1 = i' then insert k (e j i') else e j1 i1, fun u i1 l1 hu => ?_,
          h.wk, fun j1 u B hu => ?_, fun j1 u o hu => ?_, fun j1 i1 k1 hk1 => ?_, ?_⟩
        · simp only [hp, Option.map_some] at hu
          rcases ConcMap.upd_cases hu with ⟨rfl, hy⟩ | ⟨_, hy⟩
          · cases hy
            exact hok
          · exact h.key u i1 l1 hy
        · have hne : u ≠ t ∧ (s.c j1).th u = some B := by
            by_cases e : j1 = j
            · subst e
              simp only [Function.update_self] at hu
              rcases ConcMap.upd_cases hu with ⟨_, hy⟩ | ⟨hne, hy⟩
              · cases hy
              · exact ⟨hne, hy⟩
            · simp only [Function.update_of_ne e] at hu
              refine ⟨?_, hu⟩
              rintro rfl
              have h1 := (h.th j1 u B hu).1
              rw [hj] at h1
              exact e (Option.some.inj h1).symm
          simp only [Function.update_of_ne hne.1]
          exact h.th j1 u B hne.2
        · have hold : Ev.inv u o ∈ (s.c j1).hist := by
            by_cases e : j1 = j
            · subst e
              simp only [Function.update_self] at hu
              simpa using hu
            · simpa only [Function.update_of_ne e] using hu
          obtain ⟨k1, ho, h1⟩ := h.call j1 u o hold
          refine ⟨k1, ho, ?_⟩
          rcases h1 with ⟨i1, h1⟩ | ⟨v, B, h2, h3⟩
          · refine Or.inl ⟨i1, ?_⟩
            beta_reduce
            split_ifs with e
            · obtain ⟨rfl, rfl⟩ := e
              exact Finset.mem_insert_of_mem h1
            · exact h1
          · by_cases e : j1 = j
            · subst e
              by_cases e2 : v = t
              · subst e2
                rw [hA] at h2
                injection h2 with h2
                subst h2
                rw [hop] at h3
                injection h3 with _ h3
                subst h3
                exact Or.inl ⟨i', by simp⟩
              · refine Or.inr ⟨v, B, ?_, h3⟩
                simp only [Function.update_self, Function.update_of_ne e2]
                exact h2
            · exact Or.inr ⟨v, B, by simp only [Function.update_of_ne e]; exact h2, h3⟩
        · have hmono : ∀ k, Growing.Acked (s.c j1).hist k → Growing.Acked (Function.update s.c j
              { sh := sh, th := Function.update (s.c j).th t none, hist := (s.c j).hist ++ [.res t A.op r] } j1).hist k := by
            intro k hk
            by_cases e : j1 = j
            · subst e
              obtain ⟨v, w, b, h1⟩ := hk
              simp only [Function.update_self]
              exact ⟨v, w, b, List.mem_append_left _ h1⟩
            · simpa only [Function.update_of_ne e] using hk
          beta_reduce at hk1
          split_ifs at hk1 with e
          · obtain ⟨rfl, rfl⟩ := e
            rcases Finset.mem_insert.1 hk1 with rfl | hk1
            · refine ⟨hk0, ?_⟩
              obtain ⟨b, rfl⟩ := Dist.ret_bool hst
              simp only [Function.update_self]
              exact ⟨t, t, b, by rw [hop]; simp⟩
            · exact ⟨(h.ack _ _ _ hk1).1, hmono _ (h.ack _ _ _ hk1).2⟩
          · exact ⟨(h.ack _ _ _ hk1).1, hmono _ (h.ack _ _ _ hk1).2⟩
        · have := sim_run (fed := []) (m := s.mks) (m' := s.mks) (e := e) (work := s.work)
            (e' := fun j1 i1 => if j1 = j ∧ i1 = i' then insert k (e j i') else e j1 i1) (l' := some l') hb
            (by
              rw [step_pend _ hp]
              cases j <;> simp [add]) (fun i1 hi1 => ⟨rfl, fun j1 => by simp [hi1]⟩) h.abs
          simpa only [hp, Option.map_some, List.map_nil, List.nil_append] using this
    · cases hs
  · rename_i hj
    have hidle : ∀ j1 u B, (s.c j1).th u = some B → u ≠ t := by
      rintro j1 u B hu rfl
      have := (h.th j1 u B hu).1
      rw [hj] at this
      cases this
    split at hs
    · rename_i hb
      split at hs
      · cases hs
      · -- an item is taken
        rename_i i it hw
        injection hs with hs
        subst hs
        refine ⟨e, fun u i1 l1 hu => ?_, fun i1 x hx => h.wk i1 x (List.mem_of_mem_eraseIdx hx), fun j1 u B hu => ?_,
          h.call, h.ack, ?_⟩
        · rcases ConcMap.upd_cases hu with ⟨rfl, hy⟩ | ⟨_, hy⟩
          · cases hy
            cases it
            · exact inf_ne hD
            · exact h.wk i _ (List.mem_of_getElem? hw)
          · exact h.key u i1 l1 hy
        · simp only [Function.update_of_ne (hidle j1 u B hu)]
          exact h.th j1 u B hu
        · refine sim_start hb hw ?_ h.abs
          cases it <;> rfl
    · rename_i i l hb
      split at hs
      · -- an insertion is called
        rename_i j k l' hp
        injection hs with hs
        subst hs
        refine ⟨e, h.key, h.wk, fun j1 u B hu => ?_, fun j1 u o hu => ?_, fun j1 i k hk => ?_, h.abs⟩
        · by_cases e : j1 = j
          · subst e
            simp only [Function.update_self] at hu
            rcases ConcMap.upd_cases hu with ⟨rfl, hy⟩ | ⟨hne, hy⟩
            · injection hy with hy
              subst hy
              exact ⟨by simp, i, l, k, l', hb, hp, rfl⟩
            · simp only [Function.update_of_ne hne]
              exact h.th j1 u B hy
          · simp only [Function.update_of_ne e] at hu
            simp only [Function.update_of_ne (hidle j1 u B hu)]
            exact h.th j1 u B hu
        · by_cases e : j1 = j
          · subst e
            simp only [Function.update_self, List.mem_append, List.mem_singleton] at hu ⊢
            rcases hu with hu | hu
            · obtain ⟨k1, ho, h1⟩ := h.call j1 u o hu
              refine ⟨k1, ho, h1.imp id ?_⟩
              rintro ⟨v, B, h2, h3⟩
              exact ⟨v, B, by simp only [Function.update_of_ne (hidle j1 v B h2)]; exact h2, h3⟩
            · injection hu with h1 h2
              subst h1 h2
              exact ⟨k, rfl, Or.inr ⟨u, _, Function.update_self .., rfl⟩⟩
          · simp only [Function.update_of_ne e] at hu ⊢
            exact h.call j1 u o hu
        · by_cases e : j1 = j
          · subst e
            obtain ⟨h1, v, w, b, h2⟩ := h.ack j1 i k hk
            simp only [Function.update_self]
            exact ⟨h1, v, w, b, List.mem_append_left _ h2⟩
          · simpa only [Function.update_of_ne e] using h.ack j1 i k hk
      · rename_i hp
        split at hs
        · cases hs
        · -- another step of the body
          rename_i m' l' fed hq
          injection hs with hs
          subst hs
          have hok := (h.key t i l hb).quiet (hT i) hp hq
          refine ⟨e, fun u i1 l1 hu => ?_, fun i1 x hx => ?_, fun j1 u B hu => ?_, h.call, h.ack, ?_⟩
          · rcases ConcMap.upd_cases hu with ⟨rfl, hy⟩ | ⟨_, hy⟩
            · cases l' with
              | none => cases hy
              | some l' =>
                cases hy
                exact hok.1 _ rfl
            · exact h.key u i1 l1 hy
          · rcases List.mem_append.1 hx with hx | hx
            · obtain ⟨y, hy, hxy⟩ := List.mem_map.1 hx
              cases hxy
              exact hok.2 x hy
            · exact h.wk i1 x hx
          · simp only [Function.update_of_ne (hidle j1 u B hu)]
            exact h.th j1 u B hu
          · refine sim_run (e' := e) hb ?_ (fun i1 hi1 => ⟨Function.update_of_ne hi1 _ _, fun _ => rfl⟩) h.abs
            rw [step_quiet (e := ⟨s.mks i, e false i, e true i⟩) hp hq]
            simp

theorem EInv.steps {D a n : Nat} {Ts : Fin P → Tri} {meets : Fin P → Nat → Bool} {e : Bool → Fin P → Finset Nat}
    {s s' : Loop N P} (hD : D < 64) (hT : ∀ i, IdsOk (Ts i)) (h : EInv D a n Ts meets s e)
    (hs : Relation.ReflTransGen (Loop.Step D Ts meets) s s') : ∃ e', EInv D a n Ts meets s' e' := by
  induction hs with
  | refl => exact ⟨e, h⟩
  | tail _ h1 ih =>
    obtain ⟨e', ih⟩ := ih
    obtain ⟨t, m, h1⟩ := h1
    exact ih.step hD hT h1

end Edges
end Verif
