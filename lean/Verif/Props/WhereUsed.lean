import Verif.Props.Edge

/-!
# The face index (C48)
-/
namespace Verif
namespace DC
open Work

/-- First layer: the neighbours of edge simplices that are not edge simplices themselves. -/
def FirstLayer (T : Tri) (edge : Finset Nat) (n : Nat) : Prop :=
  n ≠ sINF ∧ n ∉ edge ∧ ∃ e ∈ edge, n ∈ T.ns e

namespace Wu
variable {T : Tri} {edge : Finset Nat}

/-- The body is still going to check simplex `x`. -/
def hnd : WuL → Option Nat
  | .chk x => some x
  | .setDone x => some x
  | _ => none

/-- The body is going to look at neighbour `n` of simplex `x`. -/
def willNb (x n : Nat) : WuL → Prop
  | .nb y l => y = x ∧ n ∈ l
  | .setq y m l => y = x ∧ (n = m ∨ n ∈ l)
  | .ins y _ _ l => y = x ∧ n ∈ l
  | _ => False

/-- The body is going to insert face `i` of simplex `n`. -/
def willIns (n i : Nat) : WuL → Prop
  | .ins _ m j _ => n = m ∧ j ≤ i
  | _ => False

/-- Bodies that may occur. -/
def OkL (T : Tri) (edge : Finset Nat) : WuL → Prop
  | .chk e => e ∈ edge
  | .setDone e => e ∈ edge
  | .nb e l => e ∈ edge ∧ ∀ n ∈ l, n ∈ T.ns e
  | .setq e n l => e ∈ edge ∧ (n ∈ T.ns e ∧ n ≠ sINF ∧ n ∉ edge) ∧ ∀ n ∈ l, n ∈ T.ns e
  | .ins e n _ l => e ∈ edge ∧ (n ∈ T.ns e ∧ n ≠ sINF ∧ n ∉ edge) ∧ ∀ n ∈ l, n ∈ T.ns e

def HasH (act : Multiset WuL) (x : Nat) : Prop := ∃ l ∈ act, hnd l = some x
def HasI (act : Multiset WuL) (x v : Nat) : Prop := ∃ l ∈ act, willIns x v l
def HasN (act : Multiset WuL) (x n : Nat) : Prop := ∃ l ∈ act, willNb x n l

theorem hasH_cons (l : WuL) (act : Multiset WuL) (x : Nat) :
    HasH (l ::ₘ act) x ↔ hnd l = some x ∨ HasH act x := exists_mem_cons ..
theorem hasI_cons (l : WuL) (act : Multiset WuL) (x v : Nat) :
    HasI (l ::ₘ act) x v ↔ willIns x v l ∨ HasI act x v := exists_mem_cons ..
theorem hasN_cons (l : WuL) (act : Multiset WuL) (x n : Nat) :
    HasN (l ::ₘ act) x n ↔ willNb x n l ∨ HasN act x n := exists_mem_cons ..

structure Sound (D : Nat) (hash : Nat → BitVec 32) (T : Tri) (edge : Finset Nat) (c : Cfg WuSt WuL Nat) :
    Prop where
  queue : ∀ x ∈ c.queue, x ∈ edge
  act : ∀ l ∈ c.act, OkL T edge l
  wu : ∀ k n, (k, n) ∈ c.sh.wu → FirstLayer T edge n ∧ ∃ i < D + 1, k = faceKey hash (T.vs n) i

structure Compl (D : Nat) (hash : Nat → BitVec 32) (T : Tri) (edge : Finset Nat) (q d : Nat)
    (c : Cfg WuSt WuL Nat) : Prop where
  ins : ∀ n ∉ edge, n ∈ T.range → q ≤ c.sh.mks n → ∀ i < D + 1,
    (faceKey hash (T.vs n) i, n) ∈ c.sh.wu ∨ HasI c.act n i
  notDone : ∀ e ∈ edge, c.sh.mks e ≠ d → e ∈ c.queue ∨ HasH c.act e
  done : ∀ e ∈ edge, c.sh.mks e = d → ∀ n ∈ T.ns e, n ≠ sINF → n ∉ edge →
    q ≤ c.sh.mks n ∨ HasN c.act e n

theorem sound_step {D : Nat} {hash : Nat → BitVec 32} (q d : Nat) {sh sh' : WuSt} {Q : Multiset Nat} {l : WuL}
    {act : Multiset WuL} {l' : Option WuL} {fed : List Nat}
    (h : wuStep D hash T edge q d l sh = some (sh', l', fed)) (hs : Sound D hash T edge ⟨sh, Q, l ::ₘ act⟩) :
    Sound D hash T edge ⟨sh', (fed : Multiset Nat) + Q, (l'.toList : Multiset WuL) + act⟩ := by
  obtain ⟨h1, h2, h3⟩ := hs
  simp only [forall_mem_cons] at h2
  obtain ⟨h2, h2'⟩ := h2
  simp only at h1 h3
  cases l with
  | chk x =>
    simp only [wuStep] at h
    split_ifs at h with hb hc <;> cases h <;> refine ⟨by simpa using h1, ?_, h3⟩
    · simpa using h2'
    · simpa [OkL] using ⟨h2, h2'⟩
  | setDone x =>
    cases h
    have : OkL T edge (.nb x (T.ns x)) := ⟨h2, fun v hv => hv⟩
    exact ⟨by simpa using h1, by simpa using ⟨this, h2'⟩, h3⟩
  | nb x l =>
    cases l with
    | nil => cases h; exact ⟨by simpa using h1, by simpa using h2', h3⟩
    | cons n l =>
      have h6 : OkL T edge (.nb x l) := ⟨h2.1, fun w hw => h2.2 w (by simp [hw])⟩
      simp only [wuStep] at h
      split_ifs at h with ha hb hc <;> cases h <;> refine ⟨by simpa using h1, ?_, h3⟩
      · have : OkL T edge (.setq x n l) := ⟨h2.1, ⟨h2.2 n (by simp), ha⟩, h6.2⟩
        simpa using ⟨this, h2'⟩
      · simpa using ⟨h6, h2'⟩
      · simpa using ⟨h6, h2'⟩
  | setq x n l =>
    cases h
    exact ⟨by simpa using h1, by simpa [OkL] using ⟨h2, h2'⟩, h3⟩
  | ins x n i l =>
    simp only [wuStep] at h
    split_ifs at h with ha <;> cases h
    · refine ⟨by simpa using h1, by simpa [OkL] using ⟨h2, h2'⟩, ?_⟩
      intro k m hk
      rcases List.mem_cons.mp hk with h | h
      · cases h
        exact ⟨⟨h2.2.1.2.1, h2.2.1.2.2, x, h2.1, h2.2.1.1⟩, i, ha, rfl⟩
      · exact h3 k m h
    · have : OkL T edge (.nb x l) := ⟨h2.1, h2.2.2⟩
      exact ⟨by simpa using h1, by simpa using ⟨this, h2'⟩, h3⟩

theorem compl_step {D : Nat} {hash : Nat → BitVec 32} {q d : Nat} (hqd : q < d) {sh sh' : WuSt}
    {Q : Multiset Nat} {l : WuL} {act : Multiset WuL} {l' : Option WuL} {fed : List Nat}
    (h : wuStep D hash T edge q d l sh = some (sh', l', fed)) (hs : Sound D hash T edge ⟨sh, Q, l ::ₘ act⟩)
    (hc : Compl D hash T edge q d ⟨sh, Q, l ::ₘ act⟩) :
    Compl D hash T edge q d ⟨sh', (fed : Multiset Nat) + Q, (l'.toList : Multiset WuL) + act⟩ := by
  obtain ⟨h1, h2, h3⟩ := hc
  have hok := hs.act l (by simp)
  simp only [hasH_cons, hasI_cons, hasN_cons] at h1 h2 h3
  cases l with
  | chk x =>
    simp only [hnd, willIns, willNb, false_or, reduceCtorEq, Option.some.injEq] at h1 h2 h3
    simp only [wuStep] at h
    split_ifs at h with ha hb <;> cases h
    all_goals
      constructor <;> simp only [hasH_cons, hasI_cons, hasN_cons, Option.toList_none,
        Option.toList_some, Multiset.coe_singleton, Multiset.singleton_add, Multiset.coe_nil, zero_add,
        hnd, willIns, willNb, false_or, reduceCtorEq, Option.some.injEq] <;> grind
  | setDone x =>
    simp only [hnd, willIns, willNb, false_or, reduceCtorEq, Option.some.injEq] at h1 h2 h3
    cases h
    constructor <;> simp only [hasH_cons, hasI_cons, hasN_cons, Option.toList_none,
        Option.toList_some, Multiset.coe_singleton, Multiset.singleton_add, Multiset.coe_nil, zero_add,
        hnd, willIns, willNb, false_or, reduceCtorEq, Option.some.injEq, Function.update_apply] <;>
      grind [OkL]
  | nb x l =>
    simp only [hnd, willIns, willNb, false_or, reduceCtorEq, Option.some.injEq] at h1 h2 h3
    cases l with
    | nil =>
      cases h
      constructor <;> simp only [Option.toList_none,
        Multiset.coe_nil, zero_add] <;> grind
    | cons n l =>
      simp only [wuStep] at h
      split_ifs at h with ha hb hc <;> cases h
      all_goals
        constructor <;> simp only [hasH_cons, hasI_cons, hasN_cons,
          Option.toList_some, Multiset.coe_singleton, Multiset.singleton_add, Multiset.coe_nil, zero_add,
          hnd, willIns, willNb, false_or, reduceCtorEq] <;> grind
  | setq x n l =>
    simp only [hnd, willIns, willNb, false_or, reduceCtorEq, Option.some.injEq] at h1 h2 h3
    cases h
    constructor <;> simp only [hasH_cons, hasI_cons, hasN_cons,
        Option.toList_some, Multiset.coe_singleton, Multiset.singleton_add, Multiset.coe_nil, zero_add,
        hnd, willIns, willNb, false_or, reduceCtorEq, Function.update_apply] <;> grind [OkL]
  | ins x n i l =>
    simp only [hnd, willIns, willNb, false_or, reduceCtorEq, Option.some.injEq] at h1 h2 h3
    simp only [wuStep] at h
    split_ifs at h with ha <;> cases h
    all_goals
      constructor <;> simp only [hasH_cons, hasI_cons, hasN_cons,
        Option.toList_some, Multiset.coe_singleton, Multiset.singleton_add, Multiset.coe_nil, zero_add,
        hnd, willIns, willNb, false_or, reduceCtorEq, List.mem_cons] <;> grind

/-! Termination -/

/-- Bound for the remaining work of a body. -/
def weight (D : Nat) (T : Tri) : WuL → Nat
  | .chk x => (D + 5) * (T.ns x).length + 3
  | .setDone x => (D + 5) * (T.ns x).length + 2
  | .nb _ l => (D + 5) * l.length + 1
  | .setq _ _ l => (D + 5) * l.length + D + 4
  | .ins _ _ i l => (D + 5) * l.length + (D + 1 - i) + 2

def itemW (D : Nat) (T : Tri) (x : Nat) : Nat := (D + 5) * (T.ns x).length + 4

theorem step_decreases {D : Nat} {hash : Nat → BitVec 32} {q d : Nat} {sh sh' : WuSt} {l : WuL}
    {l' : Option WuL} {fed : List Nat} (h : wuStep D hash T edge q d l sh = some (sh', l', fed)) :
    (fed.map (itemW D T)).sum + (l'.toList.map (weight D T)).sum < weight D T l := by
  cases l with
  | chk x => simp only [wuStep] at h; split_ifs at h <;> cases h <;> simp [weight]
  | setDone x => cases h; simp [weight]
  | nb x l =>
    cases l with
    | nil => cases h; simp [weight]
    | cons n l =>
      simp only [wuStep] at h
      split_ifs at h with ha hb hc <;> cases h <;> simp [weight, Nat.mul_add] <;> omega
  | setq x n l => cases h; simp [weight]; omega
  | ins x n i l =>
    simp only [wuStep] at h
    split_ifs at h with ha <;> cases h <;> simp [weight] <;> omega

def measure (D : Nat) (T : Tri) (c : Cfg WuSt WuL Nat) : Nat :=
  (c.queue.map (itemW D T)).sum + (c.act.map (weight D T)).sum

theorem measure_step {D : Nat} {hash : Nat → BitVec 32} {c c' : Cfg WuSt WuL Nat}
    (h : Step (wuProg D hash T edge) c c') : measure D T c' < measure D T c := by
  cases h with
  | start sh i Q act =>
    simp only [measure, Multiset.map_cons, Multiset.sum_cons, wuProg]
    simp only [weight, itemW]
    omega
  | run sh Q l act sh' l' fed h =>
    have := step_decreases h
    simp only [measure, Multiset.map_add, Multiset.sum_add, Multiset.map_cons, Multiset.sum_cons,
      Multiset.map_coe, Multiset.sum_coe]
    omega

theorem reach_inv {D : Nat} {hash : Nat → BitVec 32} (hd : T.mark + 2 < 256) (he : edge ⊆ T.range)
    (hm : T.MarksOk) {c : Cfg WuSt WuL Nat} (h : Reach (wuProg D hash T edge) ⟨T.mks, []⟩ edge.val c) :
    Sound D hash T edge c ∧ Compl D hash T edge (nextMark T.mark) (nextMark (nextMark T.mark)) c := by
  obtain ⟨e1, e2⟩ := nextMark_two hd
  refine h.invariant (fun c => Sound D hash T edge c ∧ Compl D hash T edge _ _ c) ?_ ?_ ?_ ?_
  · refine ⟨⟨fun x hx => hx, by simp, by simp⟩, ?_, ?_, ?_⟩
    · intro n hn hr hq
      have := hm n hr
      simp only at hq
      omega
    · intro e he _; exact Or.inl he
    · intro e h' hq
      have := hm e (he h')
      simp only at hq
      omega
  · rintro sh i Q act ⟨⟨h1, h2, h3⟩, ⟨g1, g2, g3⟩⟩
    simp only [forall_mem_cons] at h1
    refine ⟨⟨h1.2, ?_, h3⟩, ?_⟩
    · simp only [forall_mem_cons]
      exact ⟨h1.1, h2⟩
    · simp only [Multiset.mem_cons] at g1 g2 g3
      constructor <;> simp only [hasH_cons, hasI_cons, hasN_cons, wuProg,
        hnd, willIns, willNb, false_or, reduceCtorEq, Option.some.injEq] <;> grind
  · rintro sh Q l act sh' l' fed h ⟨hs, hc⟩
    have := And.intro (sound_step _ _ h hs) (compl_step (by omega) h hs hc)
    simpa [Option.toList, Multiset.singleton_add] using this
  · rintro sh Q l act sh' fed h ⟨hs, hc⟩
    have := And.intro (sound_step _ _ h hs) (compl_step (by omega) h hs hc)
    simpa using this

end Wu

/-- **C48**: whatever the schedule, the face index built by `buildWhereUsed` contains exactly the face
fingerprints of the first layer, i.e. the remaining neighbours of the edge simplices. -/
theorem C48_buildWhereUsed (D : Nat) (hash : Nat → BitVec 32) (T T' : Tri) (edge : Finset Nat)
    (wu : List (BitVec 32 × Nat)) (hmark : T.mark + 2 < 256) (he : edge ⊆ T.range) (hm : T.MarksOk)
    (hn : ∀ e ∈ edge, ∀ n ∈ T.ns e, n ≠ sINF → n ∈ T.range)
    (h : BuildWhereUsed D hash T edge T' wu) (k : BitVec 32) (n : Nat) :
    (k, n) ∈ wu ↔ FirstLayer T edge n ∧ ∃ i < D + 1, k = faceKey hash (T.vs n) i := by
  obtain ⟨mks, hf, -⟩ := h
  obtain ⟨hs, hc⟩ := Wu.reach_inv hmark he hm hf
  refine ⟨hs.wu k n, ?_⟩
  rintro ⟨⟨h1, h2, e, h3, h4⟩, i, hi, rfl⟩
  have noH : ∀ x, ¬ Wu.HasH 0 x := by rintro x ⟨l, hl, _⟩; simp at hl
  have noI : ∀ x i, ¬ Wu.HasI 0 x i := by rintro x i ⟨l, hl, _⟩; simp at hl
  have noN : ∀ x i, ¬ Wu.HasN 0 x i := by rintro x i ⟨l, hl, _⟩; simp at hl
  by_cases hd : mks e = nextMark (nextMark T.mark)
  · rcases hc.done e h3 hd n h4 h1 h2 with h | h
    · rcases hc.ins n h2 (hn e h3 n h4 h1) h i hi with h | h
      · exact h
      · exact absurd h (noI _ _)
    · exact absurd h (noN _ _)
  · rcases hc.notDone e h3 hd with h | h
    · simp at h
    · exact absurd h (noH _)

/-- **C48** (termination): no schedule is infinite. -/
theorem C48_buildWhereUsed_terminates (D : Nat) (hash : Nat → BitVec 32) (T : Tri) (edge : Finset Nat) :
    ¬ ∃ f : Nat → Cfg WuSt WuL Nat, ∀ k, Step (wuProg D hash T edge) (f k) (f (k + 1)) :=
  no_infinite _ Nat.lt_wfRel.wf (Wu.measure D T) (fun _ _ h => Wu.measure_step h)

/-- **C48** (defined behaviour). -/
theorem C48_buildWhereUsed_defined (D : Nat) (hash : Nat → BitVec 32) (T : Tri) (edge : Finset Nat)
    (hmark : T.mark + 2 < 256) (he : edge ⊆ T.range) (hm : T.MarksOk)
    (hn : ∀ e ∈ edge, ∀ n ∈ T.ns e, n ≠ sINF → n ∈ T.range)
    (c : Cfg WuSt WuL Nat) (h : Reach (wuProg D hash T edge) ⟨T.mks, []⟩ edge.val c) :
    ¬ Undef (wuProg D hash T edge) c ∧ (Terminal c ∨ ∃ c', Step (wuProg D hash T edge) c c') := by
  obtain ⟨hs, -⟩ := Wu.reach_inv hmark he hm h
  have : ¬ Undef (wuProg D hash T edge) c := by
    rintro ⟨l, hl, hu⟩
    have hok := hs.act l hl
    simp only [wuProg] at hu
    cases l with
    | chk x =>
      simp only [wuStep] at hu
      split_ifs at hu with ha
      exact ha (he hok)
    | nb x l =>
      cases l with
      | nil => simp [wuStep] at hu
      | cons n l =>
        simp only [wuStep] at hu
        split_ifs at hu with ha hb
        exact hb (hn x hok.1 n (hok.2 n (by simp)) ha.1)
    | ins x n i l => simp only [wuStep] at hu; split_ifs at hu
    | _ => simp [wuStep] at hu
  exact ⟨this, progress this⟩

/-- `buildWhereUsed` changes only marks, to the two new values. -/
theorem buildWhereUsed_marks {D : Nat} {hash : Nat → BitVec 32} {T T' : Tri} {edge : Finset Nat}
    {wu : List (BitVec 32 × Nat)} (h : BuildWhereUsed D hash T edge T' wu) :
    ∃ mks, T' = { T with mks := mks, mark := nextMark (nextMark T.mark) } ∧
      ∀ x, mks x = T.mks x ∨ mks x = nextMark T.mark ∨ mks x = nextMark (nextMark T.mark) := by
  obtain ⟨mks, hf, e⟩ := h
  refine ⟨mks, e, ?_⟩
  have key : ∀ sh sh' l l' fed, (wuProg D hash T edge).step l sh = some (sh', l', fed) →
      (∀ x, sh.mks x = T.mks x ∨ sh.mks x = nextMark T.mark ∨ sh.mks x = nextMark (nextMark T.mark)) →
      ∀ x, sh'.mks x = T.mks x ∨ sh'.mks x = nextMark T.mark ∨ sh'.mks x = nextMark (nextMark T.mark) := by
    intro sh sh' l l' fed h ih x
    have ih := ih x
    simp only [wuProg] at h
    cases l with
    | chk y => simp only [wuStep] at h; split_ifs at h <;> cases h <;> exact ih
    | setDone y =>
      cases h
      simp only [Function.update_apply]
      split_ifs
      · exact Or.inr (Or.inr rfl)
      · exact ih
    | nb y l =>
      cases l with
      | nil => cases h; exact ih
      | cons n l => simp only [wuStep] at h; split_ifs at h <;> cases h <;> exact ih
    | setq y n l =>
      cases h
      simp only [Function.update_apply]
      split_ifs
      · exact Or.inr (Or.inl rfl)
      · exact ih
    | ins y n i l => simp only [wuStep] at h; split_ifs at h <;> cases h <;> exact ih
  exact Reach.invariant hf (fun c => ∀ x, c.sh.mks x = T.mks x ∨ c.sh.mks x = nextMark T.mark ∨
    c.sh.mks x = nextMark (nextMark T.mark)) (fun x => Or.inl rfl) (fun sh i q act h => h)
    (fun _ _ _ _ _ _ _ h ih => key _ _ _ _ _ h ih) (fun _ _ _ _ _ _ h ih => key _ _ _ _ _ h ih)

/-- **C47** (partial: as long as the 8-bit counter does not overflow), pass of `buildWhereUsed`. -/
theorem C47_buildWhereUsed_partial (D : Nat) (hash : Nat → BitVec 32) (T T' : Tri) (edge : Finset Nat)
    (wu : List (BitVec 32 × Nat)) (hm : T.MarksOk) (hmark : T.mark + 2 < 256)
    (h : BuildWhereUsed D hash T edge T' wu) :
    T'.MarksOk ∧ T'.mark = T.mark + 2 ∧ ∀ x ∈ T.range, T.mks x < nextMark T.mark := by
  obtain ⟨mks, rfl, hk⟩ := buildWhereUsed_marks h
  obtain ⟨e1, e2⟩ := nextMark_two hmark
  refine ⟨fun x hx => ?_, e2, fun x hx => ?_⟩
  · have : T.mks x ≤ T.mark := hm x hx
    rcases hk x with h | h | h <;> simp only [h] <;> omega
  · have := hm x hx
    omega

/-- Simplices 1 and 2 of the chain are removed: the first layer is simplex 3. -/
example : ({1, 2} : Finset Nat) ⊆ chain.range ∧ chain.MarksOk ∧ chain.mark + 2 < 256 ∧
    (∀ e ∈ ({1, 2} : Finset Nat), ∀ n ∈ chain.ns e, n ≠ sINF → n ∈ chain.range) ∧
    FirstLayer chain {1, 2} 3 ∧ ¬ FirstLayer chain {1, 2} 4 := by
  refine ⟨by decide, fun _ _ => le_refl _, by decide, ?_, ⟨by decide, by decide, 2, by decide, ?_⟩, ?_⟩
  · intro e he n hn hf
    simp only [Finset.mem_insert, Finset.mem_singleton] at he
    rcases he with rfl | rfl <;> simp [chain] at hn <;>
      simp only [chain, Finset.mem_insert, Finset.mem_singleton] <;> omega
  · simp [chain]
  · rintro ⟨_, _, e, he, hn⟩
    simp only [Finset.mem_insert, Finset.mem_singleton] at he
    rcases he with rfl | rfl <;> simp [chain, sINF] at hn

end DC
end Verif
