import Verif.Lemmas.EdgeLoop
import Verif.Props.Edge

/-!
# C113: the edge extraction with the concurrent growing sets
-/
namespace Verif
namespace Edges
open Conc DC

variable {N P : Nat}

/-- At the end a set consists of the ids that were inserted, if its execution is timely. -/
theorem final_ids {D a n : Nat} {Ts : Fin P → Tri} {meets : Fin P → Nat → Bool} {e : Bool → Fin P → Finset Nat}
    {s : Loop N P} (hn : 4 ≤ n) (h : EInv D a n Ts meets s e) (hf : s.final) (j : Bool)
    (ht : Growing.ReachTimely (Growing.new a (capacity n j) N) (s.c j)) :
    (s.ids j).Nodup ∧ ∀ k, k ∈ s.ids j ↔ ∃ i, k ∈ e j i := by
  have hsz : 0 < capacity n j := by
    cases j <;> simp only [capacity] <;> omega
  have hCI := Growing.timely_CI hsz ht
  have hidle : ∀ t A, (s.c j).th t ≠ some A := by
    intro t A hA
    have := (h.th j t A hA).1
    rw [(hf.2 t).1] at this
    cases this
  have hlen : (s.c j).sh.tabs.length = (s.c j).sh.er + 1 := by
    have h1 := hCI.g.last
    have h2 := hCI.g.er_lt
    have h3 : (s.c j).sh.tabs.length ≠ (s.c j).sh.er + 2 := by
      intro e
      obtain ⟨t, A, hA, _⟩ := hCI.gro e
      exact hidle t A hA
    omega
  have htr : (s.c j).sh.tr = (s.c j).sh.er := by
    have h1 := hCI.g.er_tr
    have h2 := hCI.g.tr_lt
    omega
  have hids : s.ids j = (Growing.ar (s.c j).sh (s.c j).sh.er).filter fun x => x != 0 := by
    unfold Loop.ids Growing.ar
    rw [htr]
    have hlt : (s.c j).sh.er < (s.c j).sh.tabs.length := by omega
    rw [List.getElem?_eq_getElem hlt]
    exact List.filter_congr (fun x _ => by rw [bne, decide_not]; rfl)
  rw [hids]
  obtain ⟨_, _, hpath⟩ := hCI.g.tab (s.c j).sh.er hCI.g.er_lt
  refine ⟨hpath.nodup, fun id => ?_⟩
  simp only [List.mem_filter, bne_iff_ne, ne_eq]
  constructor
  · rintro ⟨h1, h2⟩
    have hG := Growing.reach_inv (h.reach j)
    have hst : Growing.Stored (s.c j).sh id := by
      unfold Growing.ar at h1
      cases htb : (s.c j).sh.tabs[(s.c j).sh.er]? with
      | none =>
        rw [htb] at h1
        cases h1
      | some tb =>
        rw [htb] at h1
        exact ⟨tb, List.mem_of_getElem? htb, h1⟩
    obtain ⟨t, i, hc⟩ := hG.sto id h2 hst
    obtain ⟨y, hyo, hy⟩ := h.call j t _ hc
    injection hyo with _ e
    subst e
    rcases hy with hy | ⟨u, A, hu, _⟩
    · exact hy
    · exact absurd hu (hidle u A)
  · rintro ⟨i, hi⟩
    obtain ⟨h1, h2⟩ := h.ack j i id hi
    exact ⟨(hCI.ack id h2).2, h1⟩

/-- Every part has performed the loop of `Verif.Model.DC`. -/
theorem final_parts {D a n : Nat} {Ts : Fin P → Tri} {meets : Fin P → Nat → Bool} {e : Bool → Fin P → Finset Nat}
    {s : Loop N P} (h : EInv D a n Ts meets s e) (hf : s.final) (i : Fin P) :
    GetEdge D (Ts i) (meets i) (s.tri Ts i) (e false i) (e true i) := by
  have h1 := h.abs i
  have h2 : items s.work i = 0 := by
    rw [hf.1]
    rfl
  have h3 : bodies s.body i = 0 := by
    have : s.body = fun _ => none := funext fun t => (hf.2 t).2
    rw [this]
    unfold bodies
    simp only [Option.bind_none]
    induction (Finset.univ : Finset (Fin N)).val using Multiset.induction_on with
    | empty => rfl
    | cons u s ih => rw [Multiset.filterMap_cons_none _ _ rfl, ih]
  rw [h2, h3] at h1
  exact ⟨s.mks i, call_final h1, rfl⟩

/-- What the extraction should compute: every part has performed `getEdge` with sets that lose nothing, and the two
growing sets contain exactly the edge simplices and the edge points of all parts, each of them once. -/
def Correct (D : Nat) (Ts : Fin P → Tri) (meets : Fin P → Nat → Bool) (s : Loop N P) : Prop :=
  ∃ eS eP : Fin P → Finset Nat, (∀ i, GetEdge D (Ts i) (meets i) (s.tri Ts i) (eS i) (eP i)) ∧
    (s.ids false).Nodup ∧ (s.ids false).toFinset = Finset.univ.biUnion eS ∧
    (s.ids true).Nodup ∧ (s.ids true).toFinset = Finset.univ.biUnion eP

theorem correct_of {D a n : Nat} {Ts : Fin P → Tri} {meets : Fin P → Nat → Bool} {e : Bool → Fin P → Finset Nat}
    {s : Loop N P} (hn : 4 ≤ n) (h : EInv D a n Ts meets s e) (hf : s.final)
    (ht : ∀ j, Growing.ReachTimely (Growing.new a (capacity n j) N) (s.c j)) : Correct D Ts meets s := by
  have h1 := fun j => final_ids hn h hf j (ht j)
  refine ⟨e false, e true, final_parts h hf, (h1 false).1, ?_, (h1 true).1, ?_⟩
  · ext k
    simp [(h1 false).2 k]
  · ext k
    simp [(h1 true).2 k]

/-- A step in which no thread writes its id into a slot that has been handed out for copying. -/
def TimelyStep (D : Nat) (Ts : Fin P → Tri) (meets : Fin P → Nat → Bool) (s s' : Loop N P) : Prop :=
  ∃ t m, s.next D Ts meets t m = some s' ∧ ∀ j, ¬ Growing.Late (s.c j) t

theorem timely_steps {D a n : Nat} {Ts : Fin P → Tri} {meets : Fin P → Nat → Bool} {e : Bool → Fin P → Finset Nat}
    {s s' : Loop N P} (hD : D < 64) (hT : ∀ i, IdsOk (Ts i)) (h : EInv D a n Ts meets s e)
    (ht : ∀ j, Growing.ReachTimely (Growing.new a (capacity n j) N) (s.c j))
    (hs : Relation.ReflTransGen (TimelyStep D Ts meets) s s') :
    (∃ e', EInv D a n Ts meets s' e') ∧ ∀ j, Growing.ReachTimely (Growing.new a (capacity n j) N) (s'.c j) := by
  induction hs with
  | refl => exact ⟨⟨e, h⟩, ht⟩
  | tail _ h1 ih =>
    obtain ⟨t, m, h1, h2⟩ := h1
    obtain ⟨⟨e1, h3⟩, h4⟩ := ih
    obtain ⟨e2, h5⟩ := h3.step hD hT h1
    refine ⟨⟨e2, h5⟩, fun j => ?_⟩
    rcases next_set hT h3 h1 j with e | ⟨e, e3⟩
    · rw [e]
      exact h4 j
    · refine .step (h4 j) (Dist.okKey e) (exclusive (h5.th j)) (fun u hu => ?_)
      by_cases e4 : u = t
      · subst e4
        exact absurd hu (h2 j)
      · exact e3 u e4

/-- **C113 (partial).** Any number of threads extract the edges of any number of parts of at least four points. If no thread
writes an id into a slot of a table that has already been handed out for copying, then at the end every part has performed
`getEdge` and the two growing sets contain exactly the edge simplices and the edge points of all parts, however often the
sets grow.
Missing: the code does not prevent such writes, and then ids are lost (`C113_violated`). -/
theorem C113_partial (D a n : Nat) (hD : D < 64) (hn : 4 ≤ n) (Ts : Fin P → Tri) (meets : Fin P → Nat → Bool)
    (hT : ∀ i, (Ts i).Wf ∧ ∀ x, (Ts i).contains x = true → x ≠ 0 ∧ ∀ v ∈ (Ts i).vs x, v ≠ 0) (s : Loop N P)
    (hs : Relation.ReflTransGen (TimelyStep D Ts meets) (Loop.init a n Ts) s) (hf : s.final) : Correct D Ts meets s := by
  obtain ⟨⟨e, h1⟩, h2⟩ := timely_steps hD hT EInv.init (fun _ => .init) hs
  exact correct_of hn h1 hf h2

/-- **C113 (partial).** Nothing is lost if the sets do not grow. -/
theorem C113_no_growth_partial (D a n : Nat) (hD : D < 64) (hn : 4 ≤ n) (Ts : Fin P → Tri) (meets : Fin P → Nat → Bool)
    (hT : ∀ i, (Ts i).Wf ∧ ∀ x, (Ts i).contains x = true → x ≠ 0 ∧ ∀ v ∈ (Ts i).vs x, v ≠ 0) (s : Loop N P)
    (hs : Extracts D N a n Ts meets s) (hg : ∀ j, (s.c j).sh.tabs.length = 1) : Correct D Ts meets s := by
  obtain ⟨e, h1⟩ := EInv.init.steps hD hT hs.1
  refine correct_of hn h1 hs.2 (fun j => Growing.nogrow_timely ?_ (h1.exec j) (hg j))
  cases j <;> simp only [capacity] <;> omega

/-- **C113 (partial).** One thread does not lose anything, however often the sets grow. -/
theorem C113_one_thread_partial (D a n : Nat) (hD : D < 64) (hn : 4 ≤ n) (Ts : Fin P → Tri) (meets : Fin P → Nat → Bool)
    (hT : ∀ i, (Ts i).Wf ∧ ∀ x, (Ts i).contains x = true → x ≠ 0 ∧ ∀ v ∈ (Ts i).vs x, v ≠ 0) (s : Loop 1 P)
    (hs : Extracts D 1 a n Ts meets s) : Correct D Ts meets s := by
  obtain ⟨e, h1⟩ := EInv.init.steps hD hT hs.1
  refine correct_of hn h1 hs.2 (fun j => Growing.serial_timely (by cases j <;> simp only [capacity] <;> omega) ?_)
  have h4 := h1.exec j
  generalize s.c j = c at h4
  induction h4 with
  | init => exact .init
  | step _ hst hex ih => exact .step ih hst hex (fun t u _ _ _ _ _ _ _ _ _ _ => Subsingleton.elim t u)

/-- **C113: nothing is invented.** In every execution, whatever happens when the sets grow, every part has performed
`getEdge`, and the sets contain only edge simplices and edge points of the parts. -/
theorem C113_sound (D a n : Nat) (hD : D < 64) (Ts : Fin P → Tri) (meets : Fin P → Nat → Bool)
    (hT : ∀ i, (Ts i).Wf ∧ ∀ x, (Ts i).contains x = true → x ≠ 0 ∧ ∀ v ∈ (Ts i).vs x, v ≠ 0) (s : Loop N P)
    (hs : Extracts D N a n Ts meets s) : ∃ eS eP : Fin P → Finset Nat,
    (∀ i, GetEdge D (Ts i) (meets i) (s.tri Ts i) (eS i) (eP i)) ∧
    (∀ x ∈ s.ids false, ∃ i, x ∈ eS i) ∧ ∀ v ∈ s.ids true, ∃ i, v ∈ eP i := by
  obtain ⟨e, h⟩ := EInv.init.steps hD hT hs.1
  have hf := hs.2
  have key : ∀ j, ∀ k ∈ s.ids j, ∃ i, k ∈ e j i := by
    intro j k hk
    unfold Loop.ids at hk
    cases htb : (s.c j).sh.tabs[(s.c j).sh.tr]? with
    | none =>
      rw [htb] at hk
      cases hk
    | some tb =>
      rw [htb] at hk
      simp only [List.mem_filter, decide_eq_true_eq] at hk
      obtain ⟨t, i, hc⟩ := (Growing.reach_inv (h.reach j)).sto k hk.2 ⟨tb, List.mem_of_getElem? htb, hk.1⟩
      obtain ⟨y, hyo, hy⟩ := h.call j t _ hc
      injection hyo with _ e
      subst e
      rcases hy with hy | ⟨u, A, hu, _⟩
      · exact hy
      · have := (h.th j u A hu).1
        rw [(hf.2 u).1] at this
        cases this
  exact ⟨e false, e true, final_parts h hf, key false, key true⟩

/-- **C113 (partial).** What this means for triangulations of the parts whose marks are in order: the ids in the two sets
are those of the simplices reachable from the hulls through simplices whose circumsphere meets another part, and of their
vertices and the infinite points. Missing: as in `C113_partial`. -/
theorem C113_spec_partial (D a n : Nat) (hD : D < 64) (hn : 4 ≤ n) (Ts : Fin P → Tri) (meets : Fin P → Nat → Bool)
    (hT : ∀ i, (Ts i).Wf ∧ ∀ x, (Ts i).contains x = true → x ≠ 0 ∧ ∀ v ∈ (Ts i).vs x, v ≠ 0)
    (hm : ∀ i, (Ts i).MarksOk ∧ (Ts i).mark + 2 < 256) (hP : 0 < P) (s : Loop N P)
    (hs : Relation.ReflTransGen (TimelyStep D Ts meets) (Loop.init a n Ts) s) (hf : s.final) :
    (∀ x, x ∈ s.ids false ↔ ∃ i, EdgeSpec (Ts i) (meets i) x) ∧
    ∀ v, v ∈ s.ids true ↔ v ∈ Part.infIds D ∨ ∃ i x, EdgeSpec (Ts i) (meets i) x ∧ v ∈ (Ts i).vs x := by
  obtain ⟨eS, eP, h1, _, h2, _, h3⟩ := C113_partial D a n hD hn Ts meets hT s hs hf
  have h4 := fun i => C46_getEdge D (Ts i) _ (meets i) _ _ (hT i).1 (hm i).1 (hm i).2 (h1 i)
  constructor
  · intro x
    rw [← List.mem_toFinset, h2]
    simp [(h4 _).1]
  · intro v
    rw [← List.mem_toFinset, h3]
    simp only [Finset.mem_biUnion, Finset.mem_univ, true_and, (h4 _).2]
    constructor
    · rintro ⟨i, h | ⟨x, h⟩⟩
      · exact Or.inl h
      · exact Or.inr ⟨i, x, h⟩
    · rintro (h | ⟨i, x, h⟩)
      · exact ⟨⟨0, hP⟩, Or.inl h⟩
      · exact ⟨i, Or.inr ⟨x, h⟩⟩

/-- **C113: when the sets have to grow.** A set grows in every execution if the number of ids inserted is at least half
the number of its slots plus the number of threads. The set of the points has a quarter of the number of points as
slots, rounded up to a power of two, the set of the simplices the number of points. -/
theorem C113_grows (D a n : Nat) (hD : D < 64) (Ts : Fin P → Tri) (meets : Fin P → Nat → Bool)
    (hT : ∀ i, (Ts i).Wf ∧ ∀ x, (Ts i).contains x = true → x ≠ 0 ∧ ∀ v ∈ (Ts i).vs x, v ≠ 0) (hn : 8 ≤ n) (s : Loop N P)
    (hs : Extracts D N a n Ts meets s) : ∃ eS eP : Fin P → Finset Nat,
    (∀ i, GetEdge D (Ts i) (meets i) (s.tri Ts i) (eS i) (eP i)) ∧
    (nextPow2 n / 2 + N ≤ (Finset.univ.biUnion eS).card → 2 ≤ (s.c false).sh.tabs.length) ∧
    (nextPow2 (n / 4) / 2 + N ≤ (Finset.univ.biUnion eP).card → 2 ≤ (s.c true).sh.tabs.length) := by
  obtain ⟨e, h⟩ := EInv.init.steps hD hT hs.1
  have hf := hs.2
  have key : ∀ j, nextPow2 (capacity n j) / 2 + N ≤ (Finset.univ.biUnion (e j)).card → 2 ≤ (s.c j).sh.tabs.length := by
    intro j hg
    have h3 : 2 ≤ capacity n j := by
      cases j <;> simp only [capacity] <;> omega
    obtain ⟨p, hp⟩ := nextPow2_isPow (Nat.lt_of_lt_of_le Nat.zero_lt_two h3)
    rcases Growing.one_or_more hp (h.reach j) with h4 | ⟨tb, h4⟩
    · exact h4
    · exfalso
      have hidle : ∀ t, (s.c j).th t = none := by
        intro t
        cases hA : (s.c j).th t with
        | none => rfl
        | some A =>
          have := (h.th j t A hA).1
          rw [(hf.2 t).1] at this
          cases this
      have h5 := h4.cnt
      rw [cnt_eq_zero (fun t => by rw [hidle t]; rfl)] at h5
      have h6 := h4.bound
      have h7 : Finset.univ.biUnion (e j) ⊆ (tb.t.arr.filter (fun x => x != 0)).toFinset := by
        intro id hid
        simp only [Finset.mem_biUnion, Finset.mem_univ, true_and] at hid
        obtain ⟨i, hi⟩ := hid
        obtain ⟨_, t, w, b, h11⟩ := h.ack j i id hi
        have := h4.res t _ _ h11
        exact List.mem_toFinset.2 (List.mem_filter.2 ⟨this.2, by simpa [Growing.Op.key] using this.1⟩)
      have h8 := (Finset.card_le_card h7).trans (List.toFinset_card_le _)
      have h9 : occ tb.t.arr = (tb.t.arr.filter (fun x => x != 0)).length := by
        unfold occ
        rw [List.countP_eq_length_filter]
      rw [hp] at hg
      have h10 := le_nextPow2 (capacity n j)
      rw [hp] at h10
      omega
  exact ⟨e false, e true, final_parts h hf, key false, key true⟩

/-! ### Executable schedules -/

/-- Steps of the threads in a given order; a thread that takes an item takes the first one, and one that has nothing to do
is left out. -/
def Loop.run (D : Nat) (Ts : Fin P → Tri) (meets : Fin P → Nat → Bool) : Loop N P → List (Fin N) → Loop N P
  | s, [] => s
  | s, t :: l => match s.next D Ts meets t 0 with
    | none => Loop.run D Ts meets s l
    | some s' => Loop.run D Ts meets s' l

theorem Loop.run_steps {D : Nat} {Ts : Fin P → Tri} {meets : Fin P → Nat → Bool} : ∀ (l : List (Fin N)) (s : Loop N P),
    Relation.ReflTransGen (Loop.Step D Ts meets) s (s.run D Ts meets l)
  | [], s => .refl
  | t :: l, s => by
    unfold Loop.run
    split
    · exact Loop.run_steps l s
    · rename_i s1 h1
      exact .head ⟨t, 0, h1⟩ (Loop.run_steps l s1)

/-- The same, `none` if a step is late. -/
def Loop.runT (D : Nat) (Ts : Fin P → Tri) (meets : Fin P → Nat → Bool) : Loop N P → List (Fin N) → Option (Loop N P)
  | s, [] => some s
  | s, t :: l =>
    if !Growing.lateB (s.c false) t && !Growing.lateB (s.c true) t then
      match s.next D Ts meets t 0 with
      | none => Loop.runT D Ts meets s l
      | some s' => Loop.runT D Ts meets s' l
    else none

theorem Loop.runT_steps {D : Nat} {Ts : Fin P → Tri} {meets : Fin P → Nat → Bool} : ∀ {l : List (Fin N)} {s s' : Loop N P},
    s.runT D Ts meets l = some s' → Relation.ReflTransGen (TimelyStep D Ts meets) s s'
  | [], s, s', h => by
    injection h with h
    subst h
    exact .refl
  | t :: l, s, s', h => by
    unfold Loop.runT at h
    split at h
    · rename_i hl
      split at h
      · exact Loop.runT_steps h
      · rename_i s1 h1
        refine .head ⟨t, 0, h1, fun j hj => ?_⟩ (Loop.runT_steps h)
        have h2 := Growing.lateB_of hj
        cases j <;> simp [h2] at hl
    · cases h

/-- What a run shows: the ids of the sets and the number of their tables, if the threads are done. -/
def outcome (s : Loop N P) : Option ((List Nat × Nat) × (List Nat × Nat)) :=
  if s.work.isEmpty && (List.finRange N).all fun t => (s.cur t).isNone && (s.body t).isNone then
    some ((s.ids false, (s.c false).sh.tabs.length), (s.ids true, (s.c true).sh.tabs.length))
  else none

theorem outcome_final {s : Loop N P} {r : (List Nat × Nat) × (List Nat × Nat)} (h : outcome s = some r) :
    s.final ∧ r = ((s.ids false, (s.c false).sh.tabs.length), (s.ids true, (s.c true).sh.tabs.length)) := by
  unfold outcome at h
  split at h
  · rename_i hf
    injection h with h
    rw [Bool.and_eq_true] at hf
    refine ⟨⟨by simpa [List.isEmpty_iff] using hf.1, fun t => ?_⟩, h.symm⟩
    have := List.all_eq_true.1 hf.2 t (List.mem_finRange t)
    simpa [Bool.and_eq_true, Option.isNone_iff_eq_none] using this
  · cases h

/-- Two parts of the plane with two triangles each. -/
def strips (i : Fin 2) : Tri where
  range := if i = 0 then {1, 2} else {3, 4}
  id := fun x => x
  vs := fun x => if x ≤ 2 then [x, x + 1, x + 2] else [x + 2, x + 3, x + 4]
  ns := fun x => if x % 2 = 1 then [x + 1, sINF, sINF] else [x - 1, sINF, sINF]
  mks := fun _ => 0
  hull := if i = 0 then [1] else [3]
  mark := 0

/-- They meet the assumptions of the theorems. -/
example (i : Fin 2) : ((strips i).Wf ∧ ∀ x, (strips i).contains x = true → x ≠ 0 ∧ ∀ v ∈ (strips i).vs x, v ≠ 0) ∧
    (strips i).MarksOk ∧ (strips i).mark + 2 < 256 := by
  refine ⟨⟨⟨?_, ?_, fun x _ => rfl⟩, ?_⟩, fun x _ => Nat.zero_le _, by simp [strips]⟩
  · intro x hx _
    revert x
    revert i
    decide
  · intro x hx n hn hf
    have hx := (Tri.contains_iff.mp hx).1
    have key : ∀ i, ∀ x ∈ (strips i).range, ∀ n ∈ (strips i).ns x, n ≠ sINF → (strips i).contains n = true := by
      decide
    exact key i x hx n hn hf
  · intro x hx
    have hx := (Tri.contains_iff.mp hx).1
    have key : ∀ i, ∀ x ∈ (strips i).range, x ≠ 0 ∧ ∀ v ∈ (strips i).vs x, v ≠ 0 := by
      decide
    exact key i x hx

theorem run_extracts {a n : Nat} {l : List (Fin N)} {meets : Fin 2 → Nat → Bool} {r : (List Nat × Nat) × (List Nat × Nat)}
    (h : outcome ((Loop.init a n strips : Loop N 2).run 2 strips meets l) = some r) :
    ∃ s : Loop N 2, Extracts 2 N a n strips meets s ∧
      ((s.ids false, (s.c false).sh.tabs.length), (s.ids true, (s.c true).sh.tabs.length)) = r := by
  obtain ⟨h1, h2⟩ := outcome_final h
  exact ⟨_, ⟨Loop.run_steps l _, h1⟩, h2.symm⟩

/-- The hypotheses are met: two threads that take turns extract the edges of the two parts; the set of the points grows
three times. -/
example : ∃ s : Loop 2 2, Relation.ReflTransGen (TimelyStep 2 strips fun _ _ => true) (Loop.init 1 16 strips) s ∧ s.final ∧
    ((s.ids false, (s.c false).sh.tabs.length), (s.ids true, (s.c true).sh.tabs.length)) =
      (([1, 2, 3, 4], 1), ([1, 2, 3, 4, 5, 6, 7, 8] ++ Part.infIds 2, 4)) := by
  have h : ((Loop.init 1 16 strips : Loop 2 2).runT 2 strips (fun _ _ => true) (List.replicate 300 [0, 1]).flatten).bind outcome =
      some (([1, 2, 3, 4], 1), ([1, 2, 3, 4, 5, 6, 7, 8] ++ Part.infIds 2, 4)) := by
    decide +kernel
  obtain ⟨s, h1, h2⟩ := Option.bind_eq_some_iff.1 h
  obtain ⟨h3, h4⟩ := outcome_final h2
  exact ⟨s, Loop.runT_steps h1, h3, h4.symm⟩

/-- Two threads, and the sets are large enough. -/
example : ∃ s : Loop 2 2, Extracts 2 2 1 128 strips (fun _ _ => true) s ∧
    ((s.ids false, (s.c false).sh.tabs.length), (s.ids true, (s.c true).sh.tabs.length)) =
      (([1, 2, 3, 4], 1), ([1, 2, 3, 4, 5, 6, 7, 8] ++ Part.infIds 2, 1)) := by
  refine run_extracts (l := (List.replicate 300 [0, 1]).flatten) ?_
  decide +kernel

/-- One thread, and the set of the points grows. -/
example : ∃ s : Loop 1 2, Extracts 2 1 1 16 strips (fun _ _ => true) s ∧
    ((s.ids false, (s.c false).sh.tabs.length), (s.ids true, (s.c true).sh.tabs.length)) =
      (([1, 2, 3, 4], 1), ([1, 2, 3, 4, 5, 6, 7, 8] ++ Part.infIds 2, 4)) := by
  refine run_extracts (l := List.replicate 400 0) ?_
  decide +kernel

/-- **C113 is violated when a set grows.** Two threads extract the edges of two parts of a partition of 64 points. Thread 0
has found a free slot for vertex 4 of simplex 2 when thread 1 makes the set of the points grow and copies the ids; thread 0
then writes 4 into the old table. At the end simplex 2 is an edge simplex, so that the merge will delete it, but its
vertex 4 is not among the edge points, so that the triangulation of the edge does not contain it. -/
theorem C113_violated : ∃ s : Loop 2 2, Extracts 2 2 1 64 strips (fun _ _ => true) s ∧
    EdgeSpec (strips 0) (fun _ => true) 2 ∧ 2 ∈ s.ids false ∧ 4 ∈ (strips 0).vs 2 ∧ 4 ∉ s.ids true := by
  obtain ⟨s, h1, h2⟩ := run_extracts (N := 2) (a := 1) (n := 64) (meets := fun _ _ => true)
    (r := (([1, 2, 3, 4], 1), ([1, 2, 3, 5, 6, 7, 8] ++ Part.infIds 2, 2)))
    (l := List.replicate 82 0 ++ List.replicate 200 1 ++ List.replicate 200 0) (by decide +kernel)
  simp only [Prod.mk.injEq] at h2
  obtain ⟨⟨h3, _⟩, h4, _⟩ := h2
  refine ⟨s, h1, ?_, by rw [h3]; decide, by decide, by rw [h4]; decide⟩
  refine .step 1 2 (.hull 1 (by decide) (by decide) rfl) ?_ ?_ rfl
  · decide
  · decide

end Edges
end Verif
