import Verif.Model.DC
import Verif.Lemmas.Work
import Mathlib.Data.Prod.Lex
import Mathlib.Algebra.Order.BigOperators.Group.Multiset
import Mathlib.Tactic.Linarith

/-!
# Edge extraction (C46)
-/
namespace Verif
namespace DC
open Work

/-- A triangulation is consistent: hull entries and neighbours of valid simplices are valid or infinite, and
valid simplices are stored under their own id. -/
structure Tri.Wf (T : Tri) : Prop where
  hull : ∀ x ∈ T.hull, x ≠ sINF → T.contains x = true
  ns : ∀ x, T.contains x = true → ∀ n ∈ T.ns x, n ≠ sINF → T.contains n = true
  id : ∀ x, T.contains x = true → T.id x = x

theorem Tri.contains_iff {T : Tri} {x : Nat} :
    T.contains x = true ↔ x ∈ T.range ∧ T.id x ≠ sINF := by
  simp [Tri.contains]

theorem Tri.Wf.ne_inf {T : Tri} (hT : T.Wf) {x : Nat} (h : T.contains x = true) : x ≠ sINF := by
  have := hT.id x h
  rw [Tri.contains_iff] at h
  rw [← this]
  exact h.2

/-- What `getEdge` should find: the simplices reachable from the convex hull through simplices whose
circumsphere meets the bounds of another part. -/
inductive EdgeSpec (T : Tri) (meets : Nat → Bool) : Nat → Prop
  | hull (x : Nat) (hx : x ∈ T.hull) (hf : x ≠ sINF) (hm : meets x = true) : EdgeSpec T meets x
  | step (x n : Nat) (hx : EdgeSpec T meets x) (hn : n ∈ T.ns x) (hf : n ≠ sINF) (hm : meets n = true) :
      EdgeSpec T meets n

variable {T : Tri} {meets : Nat → Bool}

theorem EdgeSpec.test_pos {x : Nat} (h : EdgeSpec T meets x) : meets x = true := by
  cases h <;> assumption

theorem EdgeSpec.ne_inf {x : Nat} (h : EdgeSpec T meets x) : x ≠ sINF := by
  cases h <;> assumption

theorem EdgeSpec.contains (hT : T.Wf) {x : Nat} (h : EdgeSpec T meets x) : T.contains x = true := by
  induction h with
  | hull x hx hf _ => exact hT.hull x hx hf
  | step x n _ hn hf _ ih => exact hT.ns x ih n hn hf

namespace Edge

/-- The simplex a body is still going to examine. -/
def hnd : EdgeL → Option Nat
  | .chk x => some x
  | .setDone x => some x
  | .test x => some x
  | .insS x => some x
  | .feed _ n _ => some n
  | _ => none

/-- The simplex a body has marked and is going to examine. -/
def hnd2 : EdgeL → Option Nat
  | .test x => some x
  | .insS x => some x
  | _ => none

/-- The body is going to insert vertex `v` of simplex `x`. -/
def willIns (x v : Nat) : EdgeL → Prop
  | .insV y l => y = x ∧ v ∈ l
  | _ => False

/-- The body is going to look at neighbour `n` of simplex `x`. -/
def willNb (x n : Nat) : EdgeL → Prop
  | .insV y _ => y = x
  | .nb y l => y = x ∧ n ∈ l
  | .setq y m l => y = x ∧ (n = m ∨ n ∈ l)
  | .feed y _ l => y = x ∧ n ∈ l
  | _ => False

/-- Items that may occur in the work list. -/
def Cand (T : Tri) (meets : Nat → Bool) (x : Nat) : Prop :=
  x ∈ T.hull ∨ ∃ y, EdgeSpec T meets y ∧ x ∈ T.ns y ∧ x ≠ sINF

/-- Bodies that may occur. -/
def OkL (T : Tri) (meets : Nat → Bool) : EdgeL → Prop
  | .chk x => Cand T meets x
  | .setDone x => Cand T meets x ∧ x ≠ sINF
  | .test x => Cand T meets x ∧ x ≠ sINF
  | .insS x => EdgeSpec T meets x
  | .insV x l => EdgeSpec T meets x ∧ ∀ v ∈ l, v ∈ T.vs x
  | .nb x l => EdgeSpec T meets x ∧ ∀ n ∈ l, n ∈ T.ns x
  | .setq x n l => EdgeSpec T meets x ∧ n ∈ T.ns x ∧ n ≠ sINF ∧ ∀ n ∈ l, n ∈ T.ns x
  | .feed x n l => EdgeSpec T meets x ∧ n ∈ T.ns x ∧ n ≠ sINF ∧ ∀ n ∈ l, n ∈ T.ns x

/-- Some running body is going to examine `x`. -/
def HasH (act : Multiset EdgeL) (x : Nat) : Prop := ∃ l ∈ act, hnd l = some x
def HasH2 (act : Multiset EdgeL) (x : Nat) : Prop := ∃ l ∈ act, hnd2 l = some x
def HasI (act : Multiset EdgeL) (x v : Nat) : Prop := ∃ l ∈ act, willIns x v l
def HasN (act : Multiset EdgeL) (x n : Nat) : Prop := ∃ l ∈ act, willNb x n l

theorem hasH_cons (l : EdgeL) (act : Multiset EdgeL) (x : Nat) :
    HasH (l ::ₘ act) x ↔ hnd l = some x ∨ HasH act x := exists_mem_cons ..
theorem hasH2_cons (l : EdgeL) (act : Multiset EdgeL) (x : Nat) :
    HasH2 (l ::ₘ act) x ↔ hnd2 l = some x ∨ HasH2 act x := exists_mem_cons ..
theorem hasI_cons (l : EdgeL) (act : Multiset EdgeL) (x v : Nat) :
    HasI (l ::ₘ act) x v ↔ willIns x v l ∨ HasI act x v := exists_mem_cons ..
theorem hasN_cons (l : EdgeL) (act : Multiset EdgeL) (x n : Nat) :
    HasN (l ::ₘ act) x n ↔ willNb x n l ∨ HasN act x n := exists_mem_cons ..

theorem hasH2_hasH {act : Multiset EdgeL} {x : Nat} (h : HasH2 act x) : HasH act x := by
  obtain ⟨l, hl, h⟩ := h
  refine ⟨l, hl, ?_⟩
  cases l <;> simp_all [hnd, hnd2]

def Pend (c : Cfg EdgeSt EdgeL Nat) (x : Nat) : Prop := x ∈ c.queue ∨ HasH c.act x

def Good (meets : Nat → Bool) (c : Cfg EdgeSt EdgeL Nat) (x : Nat) : Prop :=
  meets x = false ∨ x ∈ c.sh.simps

/-- Soundness invariant. -/
structure Sound (T : Tri) (meets : Nat → Bool) (P0 : Finset Nat) (c : Cfg EdgeSt EdgeL Nat) : Prop where
  queue : ∀ x ∈ c.queue, Cand T meets x
  act : ∀ l ∈ c.act, OkL T meets l
  simps : ∀ x ∈ c.sh.simps, EdgeSpec T meets x
  pts : ∀ v ∈ c.sh.pts, v ∈ P0 ∨ ∃ x, EdgeSpec T meets x ∧ v ∈ T.vs x
  inf : ∀ v ∈ P0, v ∈ c.sh.pts

/-- Completeness invariant. -/
structure Compl (T : Tri) (meets : Nat → Bool) (q d : Nat) (c : Cfg EdgeSt EdgeL Nat) : Prop where
  marked : ∀ x, T.contains x = true → q ≤ c.sh.mks x → Pend c x ∨ Good meets c x
  done : ∀ x, T.contains x = true → c.sh.mks x = d → HasH2 c.act x ∨ Good meets c x
  hull : ∀ x ∈ T.hull, x ≠ sINF → Pend c x ∨ Good meets c x
  pts : ∀ x ∈ c.sh.simps, ∀ v ∈ T.vs x, v ∈ c.sh.pts ∨ HasI c.act x v
  nbs : ∀ x ∈ c.sh.simps, ∀ n ∈ T.ns x, n ≠ sINF → q ≤ c.sh.mks n ∨ HasN c.act x n

theorem cand_contains (hT : T.Wf) {x : Nat} (h : Cand T meets x) (hf : x ≠ sINF) :
    T.contains x = true := by
  rcases h with h | ⟨y, hy, hn, _⟩
  · exact hT.hull x h hf
  · exact hT.ns y (hy.contains hT) x hn hf

theorem sound_step (hT : T.Wf) (q d : Nat) (P0 : Finset Nat) {sh sh' : EdgeSt} {Q : Multiset Nat} {l : EdgeL}
    {act : Multiset EdgeL} {l' : Option EdgeL} {fed : List Nat}
    (h : edgeStep T meets q d l sh = some (sh', l', fed)) (hs : Sound T meets P0 ⟨sh, Q, l ::ₘ act⟩) :
    Sound T meets P0 ⟨sh', (fed : Multiset Nat) + Q, (l'.toList : Multiset EdgeL) + act⟩ := by
  obtain ⟨h1, h2, h3, h4, h5⟩ := hs
  simp only [forall_mem_cons] at h1 h2 h3 h4 h5
  obtain ⟨h2, h2'⟩ := h2
  cases l with
  | chk x =>
    simp only [edgeStep] at h
    split_ifs at h with ha hb hc <;> cases h <;>
      refine ⟨by simpa using h1, ?_, h3, h4, h5⟩
    · simpa using h2'
    · simpa using h2'
    · simpa [OkL] using ⟨⟨h2, ha⟩, h2'⟩
  | setDone x =>
    cases h
    exact ⟨by simpa using h1, by simpa [OkL] using ⟨h2, h2'⟩, h3, h4, h5⟩
  | test x =>
    simp only [edgeStep] at h
    split_ifs at h with ha <;> cases h
    · refine ⟨by simpa using h1, ?_, h3, h4, h5⟩
      have : EdgeSpec T meets x := by
        rcases h2 with ⟨hc | ⟨y, hy, hn, _⟩, hf⟩
        · exact .hull x hc hf ha
        · exact .step y x hy hn hf ha
      simpa [OkL] using ⟨this, h2'⟩
    · exact ⟨by simpa using h1, by simpa using h2', h3, h4, h5⟩
  | insS x =>
    cases h
    have hid := hT.id x (h2.contains hT)
    refine ⟨by simpa using h1, ?_, ?_, h4, h5⟩
    · have : OkL T meets (.insV x (T.vs x)) := ⟨h2, fun v hv => hv⟩
      simpa using ⟨this, h2'⟩
    · intro y hy
      simp only [Finset.mem_insert, hid] at hy
      rcases hy with rfl | hy
      · exact h2
      · exact h3 y hy
  | insV x l =>
    cases l with
    | nil =>
      cases h
      have : OkL T meets (.nb x (T.ns x)) := ⟨h2.1, fun v hv => hv⟩
      exact ⟨by simpa using h1, by simpa using ⟨this, h2'⟩, h3, h4, h5⟩
    | cons v l =>
      cases h
      have : OkL T meets (.insV x l) := ⟨h2.1, fun w hw => h2.2 w (by simp [hw])⟩
      refine ⟨by simpa using h1, by simpa using ⟨this, h2'⟩, h3, ?_, ?_⟩
      · intro w hw
        simp only [Finset.mem_insert] at hw
        rcases hw with rfl | hw
        · exact Or.inr ⟨x, h2.1, h2.2 _ (by simp)⟩
        · exact h4 w hw
      · intro w hw
        simp only [Finset.mem_insert]
        exact Or.inr (h5 w hw)
  | nb x l =>
    cases l with
    | nil =>
      cases h
      exact ⟨by simpa using h1, by simpa using h2', h3, h4, h5⟩
    | cons n l =>
      have h6 : OkL T meets (.nb x l) := ⟨h2.1, fun w hw => h2.2 w (by simp [hw])⟩
      simp only [edgeStep] at h
      split_ifs at h with ha hb hc <;> cases h <;>
        refine ⟨by simpa using h1, ?_, h3, h4, h5⟩
      · simpa using ⟨h6, h2'⟩
      · have : OkL T meets (.setq x n l) := ⟨h2.1, h2.2 n (by simp), ha, h6.2⟩
        simpa using ⟨this, h2'⟩
      · simpa using ⟨h6, h2'⟩
  | setq x n l =>
    cases h
    exact ⟨by simpa using h1, by simpa [OkL] using ⟨h2, h2'⟩, h3, h4, h5⟩
  | feed x n l =>
    cases h
    have h6 : OkL T meets (.nb x l) := ⟨h2.1, h2.2.2.2⟩
    have h7 : Cand T meets n := Or.inr ⟨x, h2.1, h2.2.1, h2.2.2.1⟩
    exact ⟨by simpa using ⟨h7, h1⟩, by simpa using ⟨h6, h2'⟩, h3, h4, h5⟩

theorem compl_step (hT : T.Wf) {q d : Nat} (hqd : q < d) (P0 : Finset Nat) {sh sh' : EdgeSt} {Q : Multiset Nat}
    {l : EdgeL} {act : Multiset EdgeL} {l' : Option EdgeL} {fed : List Nat}
    (h : edgeStep T meets q d l sh = some (sh', l', fed)) (hs : Sound T meets P0 ⟨sh, Q, l ::ₘ act⟩)
    (hc : Compl T meets q d ⟨sh, Q, l ::ₘ act⟩) :
    Compl T meets q d ⟨sh', (fed : Multiset Nat) + Q, (l'.toList : Multiset EdgeL) + act⟩ := by
  obtain ⟨h1, h2, h3, h4, h5⟩ := hc
  have hok := hs.act l (by simp)
  have hne : ∀ x, T.contains x = true → x ≠ sINF := fun x => hT.ne_inf
  have hhull := hT.hull
  simp only [Pend, Good, hasH_cons, hasH2_cons, hasI_cons, hasN_cons] at h1 h2 h3 h4 h5
  cases l with
  | chk x =>
    simp only [hnd, hnd2, willIns, willNb, false_or, reduceCtorEq, Option.some.injEq] at h1 h2 h3 h4 h5
    simp only [edgeStep] at h
    split_ifs at h with ha hb hc <;> cases h
    all_goals
      constructor <;> simp only [Pend, Good, hasH_cons, hasH2_cons, hasI_cons, hasN_cons, Option.toList_none,
        Option.toList_some, Multiset.coe_singleton, Multiset.singleton_add, Multiset.coe_nil, zero_add,
        hnd, hnd2, willIns, willNb, false_or, reduceCtorEq, Option.some.injEq] <;> grind [hasH2_hasH]
  | setDone x =>
    simp only [hnd, hnd2, willIns, willNb, false_or, reduceCtorEq, Option.some.injEq] at h1 h2 h3 h4 h5
    cases h
    constructor <;> simp only [Pend, Good, hasH_cons, hasH2_cons, hasI_cons, hasN_cons, Option.toList_none,
        Option.toList_some, Multiset.coe_singleton, Multiset.singleton_add, Multiset.coe_nil, zero_add,
        hnd, hnd2, willIns, willNb, false_or, reduceCtorEq, Option.some.injEq, Function.update_apply] <;> grind
  | test x =>
    simp only [hnd, hnd2, willIns, willNb, false_or, reduceCtorEq, Option.some.injEq] at h1 h2 h3 h4 h5
    simp only [edgeStep] at h
    split_ifs at h with ha <;> cases h
    all_goals
      constructor <;> simp only [Pend, Good, hasH_cons, hasH2_cons, hasI_cons, hasN_cons, Option.toList_none,
        Option.toList_some, Multiset.coe_singleton, Multiset.singleton_add, Multiset.coe_nil, zero_add,
        hnd, hnd2, willIns, willNb, false_or, reduceCtorEq, Option.some.injEq] <;> grind
  | insS x =>
    have hid := hT.id x (EdgeSpec.contains hT hok)
    simp only [hnd, hnd2, willIns, willNb, false_or, reduceCtorEq, Option.some.injEq] at h1 h2 h3 h4 h5
    cases h
    constructor <;> simp only [Pend, Good, hasH_cons, hasH2_cons, hasI_cons, hasN_cons, Option.toList_none,
        Option.toList_some, Multiset.coe_singleton, Multiset.singleton_add, Multiset.coe_nil, zero_add,
        hnd, hnd2, willIns, willNb, false_or, reduceCtorEq, Option.some.injEq, Finset.mem_insert, hid] <;> grind
  | insV x l =>
    simp only [hnd, hnd2, willIns, willNb, false_or, reduceCtorEq, Option.some.injEq] at h1 h2 h3 h4 h5
    cases l <;> cases h
    all_goals
      constructor <;> simp only [Pend, Good, hasH_cons, hasH2_cons, hasI_cons, hasN_cons, Option.toList_none,
        Option.toList_some, Multiset.coe_singleton, Multiset.singleton_add, Multiset.coe_nil, zero_add,
        hnd, hnd2, willIns, willNb, false_or, reduceCtorEq, Option.some.injEq, Finset.mem_insert] <;> grind
  | nb x l =>
    simp only [hnd, hnd2, willIns, willNb, false_or, reduceCtorEq, Option.some.injEq] at h1 h2 h3 h4 h5
    cases l with
    | nil =>
      cases h
      constructor <;> simp only [Pend, Good, hasH_cons, hasH2_cons, hasI_cons, hasN_cons, Option.toList_none,
        Option.toList_some, Multiset.coe_singleton, Multiset.singleton_add, Multiset.coe_nil, zero_add,
        hnd, hnd2, willIns, willNb, false_or, reduceCtorEq, Option.some.injEq, Finset.mem_insert] <;> grind
    | cons n l =>
      simp only [edgeStep] at h
      split_ifs at h with ha hb hc <;> cases h
      all_goals
        constructor <;> simp only [Pend, Good, hasH_cons, hasH2_cons, hasI_cons, hasN_cons, Option.toList_none,
          Option.toList_some, Multiset.coe_singleton, Multiset.singleton_add, Multiset.coe_nil, zero_add,
          hnd, hnd2, willIns, willNb, false_or, reduceCtorEq, Option.some.injEq, Finset.mem_insert] <;> grind
  | setq x n l =>
    simp only [hnd, hnd2, willIns, willNb, false_or, reduceCtorEq, Option.some.injEq] at h1 h2 h3 h4 h5
    cases h
    constructor <;> simp only [Pend, Good, hasH_cons, hasH2_cons, hasI_cons, hasN_cons, Option.toList_none,
        Option.toList_some, Multiset.coe_singleton, Multiset.singleton_add, Multiset.coe_nil, zero_add,
        hnd, hnd2, willIns, willNb, false_or, reduceCtorEq, Option.some.injEq, Function.update_apply] <;> grind
  | feed x n l =>
    simp only [hnd, hnd2, willIns, willNb, false_or, reduceCtorEq, Option.some.injEq] at h1 h2 h3 h4 h5
    cases h
    constructor <;> simp only [Pend, Good, hasH_cons, hasH2_cons, hasI_cons, hasN_cons, Option.toList_none,
        Option.toList_some, Multiset.coe_singleton, Multiset.singleton_add, Multiset.coe_nil, zero_add,
        hnd, hnd2, willIns, willNb, false_or, reduceCtorEq, Option.some.injEq, Multiset.mem_cons] <;> grind

/-! Termination -/

/-- Simplices that are not yet queued. -/
def unq (T : Tri) (q : Nat) (mks : Nat → Nat) : Finset Nat := T.range.filter fun n => mks n < q

def itemW (T : Tri) (x : Nat) : Nat := (T.vs x).length + 3 * (T.ns x).length + 7

/-- Bound for the remaining work of a body. -/
def weight (T : Tri) (U : Finset Nat) : EdgeL → Nat
  | .chk x => (T.vs x).length + 3 * (T.ns x).length + 6
  | .setDone x => (T.vs x).length + 3 * (T.ns x).length + 5
  | .test x => (T.vs x).length + 3 * (T.ns x).length + 4
  | .insS x => (T.vs x).length + 3 * (T.ns x).length + 3
  | .insV x l => l.length + 3 * (T.ns x).length + 2
  | .nb _ l => 3 * l.length + 1
  | .setq _ n l => if n ∈ U then 3 * l.length + 2 else itemW T n + 3 * l.length + 5
  | .feed _ n l => itemW T n + 3 * l.length + 3

theorem unq_update {q m : Nat} (h : q ≤ m) (mks : Nat → Nat) (x : Nat) :
    unq T q (Function.update mks x m) = (unq T q mks).erase x := by
  ext n
  simp only [unq, Finset.mem_filter, Finset.mem_erase, Function.update_apply]
  grind

theorem step_decreases {q d : Nat} (hqd : q ≤ d) {sh sh' : EdgeSt} {l : EdgeL} {l' : Option EdgeL}
    {fed : List Nat} (h : edgeStep T meets q d l sh = some (sh', l', fed)) :
    (unq T q sh'.mks).card < (unq T q sh.mks).card ∨
    (unq T q sh'.mks = unq T q sh.mks ∧
      (fed.map (itemW T)).sum + (l'.toList.map (weight T (unq T q sh.mks))).sum <
        weight T (unq T q sh.mks) l) := by
  cases l with
  | chk x =>
    right
    simp only [edgeStep] at h
    split_ifs at h <;> cases h <;> simp [weight]
  | setDone x =>
    cases h
    simp only [unq_update hqd]
    by_cases hx : x ∈ unq T q sh.mks
    · exact Or.inl (Finset.card_erase_lt_of_mem hx)
    · right
      rw [Finset.erase_eq_of_notMem hx]
      simp [weight]
  | test x =>
    right
    simp only [edgeStep] at h
    split_ifs at h <;> cases h <;> simp [weight]
  | insS x => cases h; right; simp [weight]
  | insV x l => cases l <;> cases h <;> right <;> simp [weight]
  | nb x l =>
    cases l with
    | nil => cases h; right; simp [weight]
    | cons n l =>
      right
      simp only [edgeStep] at h
      split_ifs at h with ha hb hc <;> cases h
      · simp [weight]
      · have : n ∈ unq T q sh.mks := by simp [unq, hb, hc]
        simp [weight, this]; omega
      · simp [weight]
  | setq x n l =>
    cases h
    simp only [unq_update (le_refl q)]
    by_cases hx : n ∈ unq T q sh.mks
    · exact Or.inl (Finset.card_erase_lt_of_mem hx)
    · right
      rw [Finset.erase_eq_of_notMem hx]
      simp [weight, hx]
  | feed x n l => cases h; right; simp [weight]; omega

/-- Measure of a configuration. -/
def measure (T : Tri) (q : Nat) (c : Cfg EdgeSt EdgeL Nat) : Nat × Nat :=
  ((unq T q c.sh.mks).card,
    (c.queue.map (itemW T)).sum + (c.act.map (weight T (unq T q c.sh.mks))).sum)

theorem measure_step {c c' : Cfg EdgeSt EdgeL Nat} {P : Prog EdgeSt EdgeL Nat} {q d : Nat} (hqd : q ≤ d)
    (hi : P.init = .chk) (hp : P.step = edgeStep T meets q d) (h : Step P c c') :
    Prod.Lex (· < ·) (· < ·) (measure T q c') (measure T q c) := by
  cases h with
  | start sh i Q act =>
    refine Prod.Lex.right _ ?_
    simp only [Multiset.map_cons, Multiset.sum_cons, hi]
    simp only [weight, itemW]
    omega
  | run sh Q l act sh' l' fed h =>
    rw [hp] at h
    rcases step_decreases hqd h with h1 | ⟨h1, h2⟩
    · exact Prod.Lex.left _ _ h1
    · simp only [measure, h1]
      refine Prod.Lex.right _ ?_
      revert h2
      generalize hW : weight T (unq T q sh.mks) = W
      intro h2
      change (Multiset.map (itemW T) (↑fed + Q)).sum + (Multiset.map W (↑l'.toList + act)).sum <
        (Multiset.map (itemW T) Q).sum + (Multiset.map W (l ::ₘ act)).sum
      simp only [Multiset.map_add, Multiset.sum_add, Multiset.map_cons, Multiset.sum_cons, Multiset.map_coe,
        Multiset.sum_coe]
      omega

theorem reach_inv (hT : T.Wf) {q d : Nat} (hqd : q < d) {P : Prog EdgeSt EdgeL Nat}
    (hi : P.init = .chk) (hp : P.step = edgeStep T meets q d) {P0 : Finset Nat}
    (hm : ∀ x, T.contains x = true → T.mks x < q)
    {c : Cfg EdgeSt EdgeL Nat} (h : Reach P ⟨T.mks, ∅, P0⟩ (T.hull : Multiset Nat) c) :
    Sound T meets P0 c ∧ Compl T meets q d c := by
  refine h.invariant (fun c => Sound T meets P0 c ∧ Compl T meets q d c) ?_ ?_ ?_ ?_
  · refine ⟨⟨?_, by simp, by simp, fun v hv => Or.inl hv, fun v hv => hv⟩, ?_, ?_, ?_, by simp, by simp⟩
    · intro x hx; exact Or.inl (by simpa using hx)
    · intro x hx hq
      exact absurd (hm x hx) (by simpa using hq)
    · intro x hx hq
      have := hm x hx
      simp only at hq
      omega
    · intro x hx hf
      exact Or.inl (Or.inl (by simpa using hx))
  · rintro sh i Q act ⟨⟨h1, h2, h3, h4, h5⟩, ⟨g1, g2, g3, g4, g5⟩⟩
    rw [hi]
    simp only [forall_mem_cons] at h1
    refine ⟨⟨h1.2, ?_, h3, h4, h5⟩, ?_⟩
    · simp only [forall_mem_cons]
      exact ⟨h1.1, h2⟩
    · simp only [Pend, Good, Multiset.mem_cons] at g1 g2 g3 g4 g5
      constructor <;> simp only [Pend, Good, hasH_cons, hasH2_cons, hasI_cons, hasN_cons,
        hnd, hnd2, willIns, willNb, false_or, reduceCtorEq, Option.some.injEq] <;> grind
  · rintro sh Q l act sh' l' fed h ⟨hs, hc⟩
    rw [hp] at h
    have := And.intro (sound_step hT q d P0 h hs) (compl_step hT hqd P0 h hs hc)
    simpa [Option.toList, Multiset.singleton_add] using this
  · rintro sh Q l act sh' fed h ⟨hs, hc⟩
    rw [hp] at h
    have := And.intro (sound_step hT q d P0 h hs) (compl_step hT hqd P0 h hs hc)
    simpa using this

theorem sound_defined (hT : T.Wf) {q d : Nat} {P : Prog EdgeSt EdgeL Nat}
    (hp : P.step = edgeStep T meets q d) {P0 : Finset Nat} {c : Cfg EdgeSt EdgeL Nat}
    (h : Sound T meets P0 c) : ¬ Undef P c := by
  rintro ⟨l, hl, hn⟩
  rw [hp] at hn
  have hok := h.act l hl
  cases l with
  | chk x =>
    simp only [edgeStep] at hn
    split_ifs at hn with ha hb hc
    exact hb (Tri.contains_iff.mp (cand_contains hT hok ha)).1
  | nb x l =>
    cases l with
    | nil => simp [edgeStep] at hn
    | cons n l =>
      simp only [edgeStep] at hn
      split_ifs at hn with ha hb hc
      exact hb (Tri.contains_iff.mp (hT.ns x (hok.1.contains hT) n (hok.2 n (by simp)) ha)).1
  | test x =>
    simp only [edgeStep] at hn
    split_ifs at hn
  | insV x l => cases l <;> simp [edgeStep] at hn
  | _ => simp [edgeStep] at hn

end Edge

/-- The marks of the stored simplices are at most the mark of the triangulation. -/
def Tri.MarksOk (T : Tri) : Prop := ∀ x ∈ T.range, T.mks x ≤ T.mark

theorem nextMark_two {m : Nat} (h : m + 2 < 256) : nextMark m = m + 1 ∧ nextMark (nextMark m) = m + 2 := by
  unfold nextMark
  omega

/-- **C46** (result): whatever the schedule, when `getEdge` is finished the edge simplices are exactly those
reachable from the convex hull through simplices whose circumsphere meets another part's bounds, and the edge
points are the infinite points and their vertices. (The 8-bit mark must not overflow, see C47.) -/
theorem C46_getEdge (D : Nat) (T T' : Tri) (meets : Nat → Bool) (simps pts : Finset Nat) (hT : T.Wf)
    (hm : T.MarksOk) (hmark : T.mark + 2 < 256) (h : GetEdge D T meets T' simps pts) :
    (∀ x, x ∈ simps ↔ EdgeSpec T meets x) ∧
    (∀ v, v ∈ pts ↔ v ∈ Part.infIds D ∨ ∃ x, EdgeSpec T meets x ∧ v ∈ T.vs x) := by
  obtain ⟨mks, hf, -⟩ := h
  obtain ⟨e1, e2⟩ := nextMark_two hmark
  have hm' : ∀ x, T.contains x = true → T.mks x < nextMark T.mark := by
    intro x hx
    have := hm x (Tri.contains_iff.mp hx).1
    omega
  obtain ⟨hs, hc⟩ := Edge.reach_inv (meets := meets) hT (by omega : nextMark T.mark < nextMark (nextMark T.mark))
    rfl rfl hm' hf
  have hsimps : ∀ x, x ∈ simps ↔ EdgeSpec T meets x := by
    intro x
    refine ⟨hs.simps x, fun hx => ?_⟩
    have noP : ∀ y, ¬ Edge.Pend ⟨⟨mks, simps, pts⟩, 0, 0⟩ y := by
      rintro y (h | ⟨l, hl, _⟩)
      · simp at h
      · simp at hl
    induction hx with
    | hull x hx hf' hm =>
      rcases hc.hull x hx hf' with h | h | h
      · exact absurd h (noP x)
      · rw [hm] at h; exact absurd h (by simp)
      · exact h
    | step x n hx hn hf' hm ih =>
      rcases hc.nbs x ih n hn hf' with h | ⟨l, hl, _⟩
      · rcases hc.marked n (hT.ns x (hx.contains hT) n hn hf') h with h | h | h
        · exact absurd h (noP n)
        · rw [hm] at h; exact absurd h (by simp)
        · exact h
      · simp at hl
  refine ⟨hsimps, fun v => ⟨fun hv => ?_, ?_⟩⟩
  · rcases hs.pts v hv with h | h
    · exact Or.inl (by simpa using h)
    · exact Or.inr h
  · rintro (h | ⟨x, hx, hv⟩)
    · exact hs.inf v (by simpa using h)
    · rcases hc.pts x ((hsimps x).mpr hx) v hv with h | ⟨l, hl, _⟩
      · exact h
      · simp at hl

/-- **C46** (termination): no schedule is infinite. -/
theorem C46_getEdge_terminates (T : Tri) (meets : Nat → Bool) (hmark : T.mark + 2 < 256) :
    ¬ ∃ f : Nat → Cfg EdgeSt EdgeL Nat, ∀ k, Step (edgeProg T meets) (f k) (f (k + 1)) := by
  obtain ⟨e1, e2⟩ := nextMark_two hmark
  exact no_infinite _ (Prod.lex Nat.lt_wfRel Nat.lt_wfRel).wf (Edge.measure T (nextMark T.mark))
    (fun c c' h => Edge.measure_step (by omega) rfl rfl h)

/-- **C46** (defined behaviour): no schedule accesses a simplex without storage, and every unfinished state
can continue. -/
theorem C46_getEdge_defined (D : Nat) (T : Tri) (meets : Nat → Bool) (hT : T.Wf)
    (hm : T.MarksOk) (hmark : T.mark + 2 < 256) (c : Cfg EdgeSt EdgeL Nat)
    (h : Reach (edgeProg T meets) (edgeStart D T) (T.hull : Multiset Nat) c) :
    ¬ Undef (edgeProg T meets) c ∧ (Terminal c ∨ ∃ c', Step (edgeProg T meets) c c') := by
  obtain ⟨e1, e2⟩ := nextMark_two hmark
  have hm' : ∀ x, T.contains x = true → T.mks x < nextMark T.mark := by
    intro x hx
    have := hm x (Tri.contains_iff.mp hx).1
    omega
  obtain ⟨hs, -⟩ := Edge.reach_inv (meets := meets) hT (by omega : nextMark T.mark < nextMark (nextMark T.mark))
    rfl rfl hm' h
  have := Edge.sound_defined hT (P := edgeProg T meets) rfl hs
  exact ⟨this, progress this⟩

/-- **C46** (existence): `getEdge` has a result. -/
theorem C46_getEdge_exists (D : Nat) (T : Tri) (meets : Nat → Bool) (hT : T.Wf)
    (hm : T.MarksOk) (hmark : T.mark + 2 < 256) : ∃ T' simps pts, GetEdge D T meets T' simps pts := by
  obtain ⟨e1, e2⟩ := nextMark_two hmark
  obtain ⟨⟨⟨mks, simps, pts⟩, Q, A⟩, hr, hq, ha⟩ := exists_terminal (P := edgeProg T meets) _
    (Prod.lex Nat.lt_wfRel Nat.lt_wfRel).wf (Edge.measure T (nextMark T.mark))
    (fun c c' h => Edge.measure_step (by omega) rfl rfl h) ⟨edgeStart D T, (T.hull : Multiset Nat), 0⟩
    (fun c' h => (C46_getEdge_defined D T meets hT hm hmark c' h).1)
  simp only at hq ha
  subst hq ha
  exact ⟨_, simps, pts, mks, hr, rfl⟩

/-- `getEdge` changes only marks, to the two new values. -/
theorem getEdge_marks {D : Nat} {T T' : Tri} {meets : Nat → Bool} {simps pts : Finset Nat}
    (h : GetEdge D T meets T' simps pts) :
    ∃ mks, T' = { T with mks := mks, mark := nextMark (nextMark T.mark) } ∧
      ∀ x, mks x = T.mks x ∨ mks x = nextMark T.mark ∨ mks x = nextMark (nextMark T.mark) := by
  obtain ⟨mks, hf, e⟩ := h
  refine ⟨mks, e, ?_⟩
  refine Reach.invariant hf (fun c => ∀ x, c.sh.mks x = T.mks x ∨ c.sh.mks x = nextMark T.mark ∨
    c.sh.mks x = nextMark (nextMark T.mark)) (fun x => Or.inl rfl) (fun sh i q act h => h) ?_ ?_
  · intro sh q l act sh' l' fed h ih x
    have ih := ih x
    simp only [edgeProg] at h
    cases l with
    | chk y => simp only [edgeStep] at h; split_ifs at h <;> cases h <;> exact ih
    | setDone y =>
      cases h
      simp only [Function.update_apply]
      split_ifs
      · exact Or.inr (Or.inr rfl)
      · exact ih
    | test y => simp only [edgeStep] at h; split_ifs at h <;> cases h; exact ih
    | insS y => cases h; exact ih
    | insV y l => cases l <;> cases h <;> exact ih
    | nb y l =>
      cases l with
      | nil => cases h
      | cons n l => simp only [edgeStep] at h; split_ifs at h <;> cases h <;> exact ih
    | setq y n l =>
      cases h
      simp only [Function.update_apply]
      split_ifs
      · exact Or.inr (Or.inl rfl)
      · exact ih
    | feed y n l => cases h; exact ih
  · intro sh q l act sh' fed h ih x
    have ih := ih x
    simp only [edgeProg] at h
    cases l with
    | chk y => simp only [edgeStep] at h; split_ifs at h <;> cases h <;> exact ih
    | setDone y => cases h
    | test y => simp only [edgeStep] at h; split_ifs at h <;> cases h; exact ih
    | insS y => cases h
    | insV y l => cases l <;> cases h
    | nb y l =>
      cases l with
      | nil => cases h; exact ih
      | cons n l => simp only [edgeStep] at h; split_ifs at h <;> cases h
    | setq y n l => cases h
    | feed y n l => cases h

/-- A chain of four simplices: the first is on the hull, the circumspheres of the first, second and fourth
meet another part. -/
def chain : Tri where
  range := {1, 2, 3, 4}
  id := fun i => i
  vs := fun i => [i, i + 1, i + 2]
  ns := fun i => if i = 1 then [2, sINF, sINF] else if i = 2 then [1, 3, sINF]
    else if i = 3 then [2, 4, sINF] else [3, sINF, sINF]
  mks := fun _ => 0
  hull := [1]
  mark := 0

example : chain.Wf ∧ chain.MarksOk ∧ chain.mark + 2 < 256 ∧
    EdgeSpec chain (fun i => decide (i ≠ 3)) 2 ∧ ¬ EdgeSpec chain (fun i => decide (i ≠ 3)) 4 := by
  have hc : ∀ x, chain.contains x = true ↔ x ∈ ({1, 2, 3, 4} : Finset Nat) := by
    intro x
    rw [Tri.contains_iff]
    refine ⟨fun h => h.1, fun h => ⟨h, ?_⟩⟩
    simp only [Finset.mem_insert, Finset.mem_singleton] at h
    rcases h with rfl | rfl | rfl | rfl <;> decide
  refine ⟨⟨?_, ?_, fun _ _ => rfl⟩, fun _ _ => le_refl _, by decide, ?_, ?_⟩
  · intro x hx _
    rw [hc]
    simp only [chain, List.mem_singleton] at hx
    subst hx; decide
  · intro x hx n hn hf
    rw [hc] at hx ⊢
    simp only [Finset.mem_insert, Finset.mem_singleton] at hx
    rcases hx with rfl | rfl | rfl | rfl <;> simp [chain] at hn <;>
      simp only [Finset.mem_insert, Finset.mem_singleton] <;> omega
  · exact .step 1 2 (.hull 1 (by simp [chain]) (by decide) (by decide)) (by simp [chain]) (by decide) (by decide)
  · intro h
    cases h with
    | hull _ hx _ _ => simp [chain] at hx
    | step x n hx hn hf hm =>
      have := hx.test_pos
      simp only [chain] at hn
      split_ifs at hn with h1 h2 h3
      · simp [sINF] at hn
      · simp [sINF] at hn
      · subst h3; simp at this
      · simp [sINF] at hn

/-! ### C47 -/

/-- **C47** (partial: as long as the 8-bit counter does not overflow): after a pass the marks are again at
most the mark of the triangulation, hence smaller than the queued mark of the next pass. The passes of
`buildWhereUsed` and `updateNeighbors` are treated in `C47_buildWhereUsed_partial` and
`C47_updateNeighbors_partial`. Missing: what happens after an overflow, see `C47_marks_violated`. -/
theorem C47_getEdge_partial (D : Nat) (T T' : Tri) (meets : Nat → Bool) (simps pts : Finset Nat)
    (hm : T.MarksOk) (hmark : T.mark + 2 < 256) (h : GetEdge D T meets T' simps pts) :
    T'.MarksOk ∧ T'.mark = T.mark + 2 ∧ ∀ x ∈ T.range, T.mks x < nextMark T.mark := by
  obtain ⟨mks, rfl, hk⟩ := getEdge_marks h
  obtain ⟨e1, e2⟩ := nextMark_two hmark
  refine ⟨fun x hx => ?_, e2, fun x hx => ?_⟩
  · have : T.mks x ≤ T.mark := hm x hx
    rcases hk x with h | h | h <;> simp only [h] <;> omega
  · have := hm x hx
    omega

/-- **C47** is violated without a bound on the number of passes: with `mark = 254` the queued mark is 255 but
the done mark is 0, the mark of fresh simplices. All work items are then dropped as already checked, and the
edge is empty although a hull simplex should be found. -/
theorem C47_marks_violated : ∃ (T : Tri) (meets : Nat → Bool), T.Wf ∧ T.MarksOk ∧ T.mark < 256 ∧
    EdgeSpec T meets 1 ∧ ∀ T' simps pts, GetEdge 2 T meets T' simps pts → simps = ∅ := by
  refine ⟨{ range := {1}, id := fun i => i, vs := fun _ => [1, 2, 3], ns := fun _ => [sINF, sINF, sINF],
            mks := fun _ => 0, hull := [1], mark := 254 }, fun _ => true, ⟨?_, ?_, ?_⟩, ?_, by decide,
    .hull 1 (by simp) (by decide) rfl, ?_⟩
  · intro x hx _
    simp only [List.mem_singleton] at hx
    subst hx; decide
  · intro x _ n hn hf
    simp at hn
    exact absurd hn hf
  · intro x _; rfl
  · intro x _; simp
  · rintro T' simps pts ⟨mks, hf, -⟩
    have := Reach.invariant hf (fun c => c.sh.simps = ∅ ∧ (∀ x, c.sh.mks x = 0) ∧
      ∀ l ∈ c.act, ∃ x, l = EdgeL.chk x) ⟨rfl, fun _ => rfl, by simp⟩ ?_ ?_ ?_
    · exact this.1
    · rintro sh i q act ⟨h1, h2, h3⟩
      refine ⟨h1, h2, ?_⟩
      rw [forall_mem_cons]
      exact ⟨⟨i, rfl⟩, h3⟩
    · rintro sh q l act sh' l' fed h ⟨h1, h2, h3⟩
      rw [forall_mem_cons] at h3
      obtain ⟨⟨x, rfl⟩, h3⟩ := h3
      simp only [edgeProg, edgeStep, h2, nextMark] at h
      have := h2 x
      simp only at this
      split_ifs at h with ha hb hc <;> cases h
    · rintro sh q l act sh' fed h ⟨h1, h2, h3⟩
      rw [forall_mem_cons] at h3
      obtain ⟨⟨x, rfl⟩, h3⟩ := h3
      simp only [edgeProg, edgeStep, h2, nextMark] at h
      split_ifs at h <;> cases h <;> exact ⟨h1, h2, h3⟩

end DC
end Verif
